{"id": "C01", "title": "Nodes are processed in dependency order", "statement": "When a kernel is compiled or simulated, the list of nodes handed to the back ends contains every node of the kernel exactly once, and every node comes after all the nodes it reads, whatever order the hash containers enumerate inputs and constants in.", "quantifier": "every finite acyclic graph all of whose nodes are reachable from an input or constant, every enumeration order of the start nodes, every order of the outgoing channels", "why_tests_cant": "the enumeration order comes from hashing pointers, and graphs are unbounded", "anchors": ["src/model/dfcxx/lib/dfcxx/utils.cpp:topSort"]}
{"id": "C02", "title": "Ordering always terminates and aborts exactly on unreachable nodes", "statement": "Computing the processing order terminates on every graph (cyclic or not); its internal assertions hold exactly when each node can be reached from an input or a constant, so a kernel with an unreachable node aborts rather than being silently mis-ordered.", "quantifier": "every finite graph, cyclic or not", "why_tests_cant": "non-termination and assertion failure depend on the shape of the whole graph", "anchors": ["src/model/dfcxx/lib/dfcxx/utils.cpp:topSort"]}
{"id": "C03", "title": "Every API history builds a well-formed acyclic dataflow graph", "statement": "After any sequence of stream-building calls (inputs, outputs, constants, operators, casts, shifts, bit ranges, concatenation, offsets, multiplexers, connections) the graph is consistent: each channel appears once among the outputs of its source and once among the inputs of its target, both end points belong to the graph, start nodes are exactly the inputs and constants, and if shallow variables and outputs are only connected forward the graph has no cycle.", "quantifier": "every finite sequence of API calls with every choice of operands", "why_tests_cant": "the claim is an invariant over unbounded histories of calls", "anchors": ["src/model/dfcxx/lib/dfcxx/graph.cpp:addNode,addChannel", "src/model/dfcxx/lib/dfcxx/vars/stream.cpp", "src/model/dfcxx/lib/dfcxx/io.cpp", "src/model/dfcxx/lib/dfcxx/control.cpp", "src/model/dfcxx/lib/dfcxx/offset.cpp"]}
{"id": "C04", "title": "Operands keep the order in which the user wrote them", "statement": "After any later history of calls, the inputs of an operator node are exactly the operands given when it was created, in call order (a - b never becomes b - a, the multiplexer's select stays first), and nothing done later changes them.", "quantifier": "every operator call and every later history", "why_tests_cant": "later calls mutate shared node objects", "anchors": ["src/model/dfcxx/lib/dfcxx/graph.cpp:addChannel", "src/model/dfcxx/lib/dfcxx/vars/stream.cpp", "src/model/dfcxx/lib/dfcxx/control.cpp"]}
{"id": "C05", "title": "Equal constants share one node, different constants never do", "statement": "Requesting a constant returns the existing variable iff a constant with the same type and the same 64-bit value already exists; two requests with different type or value never alias. After any history there is at most one constant node per (type, value).", "quantifier": "every history of constant requests", "why_tests_cant": "aliasing only shows up for particular histories", "anchors": ["src/model/dfcxx/lib/dfcxx/var_builder.cpp", "src/model/dfcxx/lib/dfcxx/vars/constant.cpp", "src/model/dfcxx/lib/dfcxx/kernel.cpp"]}
{"id": "C06", "title": "Constant folding agrees with run-time evaluation", "statement": "An operator applied to two constants yields the constant the simulator would compute for the same operator applied to streams carrying those values, with the same result type.", "quantifier": "every operator, every pair of 64-bit values, signed and unsigned types", "why_tests_cant": "2^128 operand pairs per operator and type", "anchors": ["src/model/dfcxx/lib/dfcxx/vars/constant.cpp", "src/model/dfcxx/lib/dfcxx/simulator.cpp"]}
{"id": "C07", "title": "Type widths are what the user asked for", "statement": "The total width of a type built with dfUInt(b), dfInt(b), dfRawBits(b), dfFloat(e,f) and dfBool is b, b, b, 1+e+f, 1, and its fields (sign, integer bits, exponent, fraction) are the ones asked for; widths are exact as long as they fit the storage, and the exact bound past which they wrap is known.", "quantifier": "every width parameter", "why_tests_cant": "widths wrap silently at storage bounds", "anchors": ["src/model/dfcxx/lib/dfcxx/types", "src/model/dfcxx/lib/dfcxx/type_builder.cpp", "src/model/dfcxx/lib/dfcxx/kernel.cpp"]}
{"id": "C08", "title": "Bit ranges: width, bounds and argument order", "statement": "x(a,b) and x(b,a) denote the same range, have width |a-b|+1, and are rejected exactly when max(a,b) is not a bit position of x.", "quantifier": "every pair of positions and every operand width", "why_tests_cant": "positions are unbounded and boundary cases are off-by-one prone", "anchors": ["src/model/dfcxx/lib/dfcxx/vars/var.cpp", "src/model/dfcxx/lib/dfcxx/type_builder.cpp"]}
{"id": "C09", "title": "Concatenation and bit ranges are inverse", "statement": "Concatenating x above y gives a raw-bits stream whose width is the sum (modulo the 16-bit width field) and whose high part is x and low part is y in the generated hardware.", "quantifier": "every pair of widths and values", "why_tests_cant": "unbounded widths", "anchors": ["src/model/dfcxx/lib/dfcxx/vars/stream.cpp:cat", "src/model/dfcir/lib/dfcir/passes/DFCIRToFIRRTLPass.cpp:CatOp"]}
{"id": "C10", "title": "Instantiating a kernel inlines its function", "statement": "Binding an instance's inputs to streams of the caller and its outputs to shallow variables or outputs of the caller gives a graph in which every remaining node computes what it computed before with the instance's inputs replaced by the bound streams: the caller's outputs equal the composition.", "quantifier": "every caller graph, every instance graph, every binding", "why_tests_cant": "graph surgery on shared pointers over unbounded graphs", "anchors": ["src/model/dfcxx/lib/dfcxx/graph.cpp:rebindInput,rebindOutput,transferFrom", "src/model/dfcxx/include/dfcxx/kernel.h:instance"]}
{"id": "C11", "title": "Unbound instance inputs are not silently dropped", "statement": "If an instance is created without binding all its inputs, compiling or simulating the resulting kernel aborts; it never produces an ordering that omits the node.", "quantifier": "every graph and every binding that omits an input", "why_tests_cant": "needs reasoning about all graphs produced by merging", "anchors": ["src/model/dfcxx/lib/dfcxx/graph.cpp:transferFrom", "src/model/dfcxx/lib/dfcxx/utils.cpp:topSort"]}
{"id": "C12", "title": "The pre-compilation check rejects exactly kernels with undefined variables", "statement": "check() fails iff some variable was declared without a definition (newStream/newScalar) and never bound to an output of an instance, after any history of calls; connecting such a variable does not define it.", "quantifier": "every history of API calls", "why_tests_cant": "history dependent", "anchors": ["src/model/dfcxx/lib/dfcxx/kernel.cpp:check", "src/main.cpp:hlsMain"]}
{"id": "C13", "title": "The simulator computes the dataflow function", "statement": "For every tick, the value reported for each node is the value of the expression rooted at that node on that tick's inputs; in particular no value of an earlier tick leaks into a later one.", "quantifier": "every supported acyclic graph, every input sequence, every prior contents of the value table", "why_tests_cant": "unbounded graphs and sequences; stale state would only appear for particular orders", "anchors": ["src/model/dfcxx/lib/dfcxx/simulator.cpp:runSim,processOp"]}
{"id": "C14", "title": "Simulation results do not depend on the processing order", "statement": "Any two valid processing orders give the same value for every node at every tick.", "quantifier": "every pair of topological orders of every graph", "why_tests_cant": "the order depends on pointer hashing and cannot be controlled by a test", "anchors": ["src/model/dfcxx/lib/dfcxx/simulator.cpp:runSim", "src/model/dfcxx/lib/dfcxx/utils.cpp:topSort"]}
{"id": "C15", "title": "Unsupported operations make the simulation fail", "statement": "A simulation with at least one tick reports failure if the graph has a node whose kind the simulator does not implement, or an arithmetic node of raw-bits type, and otherwise never reports failure; on failure no output is produced.", "quantifier": "every graph and input file", "why_tests_cant": "depends on the whole graph", "anchors": ["src/model/dfcxx/lib/dfcxx/simulator.cpp:processOp,simulate"]}
{"id": "C16", "title": "Simulator arithmetic agrees with w-bit hardware arithmetic", "statement": "The low w bits the simulator prints for add, sub, mul, neg, and, or, xor, not and shift-left nodes of w-bit type equal w-bit modular arithmetic on the low w bits of the operands; the operators for which this fails (shift right, division, comparisons) are identified exactly.", "quantifier": "every width 1..64 and every operand value", "why_tests_cant": "2^128 operand pairs per operator and width", "anchors": ["src/model/dfcxx/lib/dfcxx/simulator.cpp", "src/model/dfcir/templates/stubs.tpl"]}
{"id": "C17", "title": "Comparisons of signed streams", "statement": "A comparison node reports the truth of the comparison of its operands interpreted in the operands' type.", "quantifier": "all operand values and all fixed operand types", "why_tests_cant": "the failing operand pairs are those with different sign bits", "anchors": ["src/model/dfcxx/lib/dfcxx/simulator.cpp:GENERIC_BINARY_OP_SIM_WITH_TYPE", "src/model/dfcxx/lib/dfcxx/vars/stream.cpp"]}
{"id": "C18", "title": "Multiplexer semantics", "statement": "In the simulator a multiplexer whose select value is s outputs the s-th alternative (0-based) for every s below the number of alternatives; a select value out of range is outside defined behaviour.", "quantifier": "every number of alternatives, every select value", "why_tests_cant": "the number of alternatives is unbounded", "anchors": ["src/model/dfcxx/lib/dfcxx/simulator.cpp:processMux", "src/model/dfcxx/lib/dfcxx/control.cpp"]}
{"id": "C19", "title": "Simulation input parsing", "statement": "Reading an input file assigns to each named input, for each block (separated by an empty line), the hexadecimal value written in that block; a file with fewer than 200 blocks is read in one batch with one tick per block.", "quantifier": "every input file", "why_tests_cant": "file contents and lengths are unbounded", "anchors": ["src/model/dfcxx/lib/dfcxx/simulator.cpp:readInput", "docs/simulation.md"]}
{"id": "C20", "title": "Long simulations lose no data at batch boundaries", "statement": "A file with any number of blocks is simulated as if it were processed in one batch: no line is dropped and no out-of-range slot is read at the 200-block boundary.", "quantifier": "every input file length", "why_tests_cant": "needs files past the internal buffer bound", "anchors": ["src/model/dfcxx/lib/dfcxx/simulator.cpp:readInput,simulate", "src/model/dfcxx/include/dfcxx/simulator.h:SIM_DATA_BUF_SIZE"]}
{"id": "C21", "title": "Tick numbering in the waveform", "statement": "Ticks in the waveform are numbered 1,2,3,... without gaps or repetition across batches and the final tick is one past the last.", "quantifier": "every sequence of batch sizes", "why_tests_cant": "batches only occur for long inputs", "anchors": ["src/model/dfcxx/lib/dfcxx/simulator.cpp:simulate,writeOutput"]}
{"id": "C22", "title": "Waveform values are exact binary images", "statement": "A value is printed with exactly as many binary digits as the type is wide, most significant first, and reading the digits back gives the value modulo 2^width (width at most 64).", "quantifier": "every value and width 0..64", "why_tests_cant": "2^64 values", "anchors": ["src/model/dfcxx/lib/dfcxx/simulator.cpp:valueToBinary"]}
{"id": "C23", "title": "Waveform identifiers are unique per signal", "statement": "Two different nodes never share a waveform identifier (provided user names are distinct).", "quantifier": "every set of node names", "why_tests_cant": "collisions depend on user-chosen names", "anchors": ["src/model/dfcxx/lib/dfcxx/simulator.cpp:genHeader"]}
{"id": "C24", "title": "Translation to DFCIR preserves the computed function", "statement": "Translating the ordered nodes to the intermediate representation gives an operation list where each operand refers to an earlier operation, and evaluating the list computes for each node the same value as the dataflow graph (multiplexer alternatives included).", "quantifier": "every well-formed graph and every valid processing order", "why_tests_cant": "unbounded graphs; reversal of alternatives must match the consumer's convention", "anchors": ["src/model/dfcxx/lib/dfcxx/dfcir_builder.cpp:translate", "src/model/dfcir/lib/dfcir/passes/DFCIRToFIRRTLPass.cpp:MuxOp"]}
{"id": "C25", "title": "ASAP scheduling meets every dependency", "statement": "After ASAP scheduling, for every dependency the consumer starts no earlier than producer start + producer latency + stream offset, and the inserted buffer makes up the difference exactly; no negative buffer is ever requested.", "quantifier": "every graph in topological order, every latency configuration, every offset", "why_tests_cant": "unbounded graphs and latencies", "anchors": ["src/model/dfcir/lib/dfcir/passes/DFCIRASAPSchedulerPass.cpp", "src/model/dfcir/lib/dfcir/passes/DFCIRScheduleUtils.cpp"]}
{"id": "C26", "title": "ASAP latency is the longest path", "statement": "The start time given to every node is the least possible one (any schedule with non-negative start times that meets the dependencies starts it no earlier), and the reported latency is the largest start time of an output, attained by a dependency path.", "quantifier": "every graph, latency configuration and schedule", "why_tests_cant": "universal over all alternative schedules", "anchors": ["src/model/dfcir/lib/dfcir/passes/DFCIRASAPSchedulerPass.cpp"]}
{"id": "C27", "title": "The ASAP pipeline computes the stream function", "statement": "In the scheduled netlist, with each operation unit a pipeline of its latency and each buffer a delay line, the value on an output at cycle t is the stream-level value at index t minus the output's scheduled time, where offset k means the element k places later.", "quantifier": "every well-formed acyclic dataflow program, every input stream, every cycle after start-up", "why_tests_cant": "infinite streams and unbounded graphs", "anchors": ["src/model/dfcir/lib/dfcir/passes/DFCIRASAPSchedulerPass.cpp", "src/model/dfcir/lib/dfcir/passes/DFCIRScheduleUtils.cpp:insertBuffers,eraseOffsets"]}
{"id": "C28", "title": "Linear-programming scheduling is correct for every solver answer", "statement": "Any integral feasible point of the constraint system built by the linear scheduler gives buffers under which the pipeline computes the stream function, whichever optimum the solver returns.", "quantifier": "every graph and every feasible solver answer", "why_tests_cant": "the solver's choice is outside the code", "anchors": ["src/model/dfcir/lib/dfcir/passes/DFCIRLinearSchedulerPass.cpp", "src/model/dfcir/lib/dfcir/passes/DFCIRLPUtils.cpp"]}
{"id": "C29", "title": "The scheduling constraint system is always satisfiable", "statement": "For every acyclic program, latency configuration and offsets with inputs able to start at 0, the constraint system generated by the linear scheduler has an integral solution, its objective is bounded below, and it has an optimal vertex whose coordinates are whole numbers.", "quantifier": "every acyclic graph", "why_tests_cant": "unbounded", "anchors": ["src/model/dfcir/lib/dfcir/passes/DFCIRLinearSchedulerPass.cpp"]}
{"id": "C30", "title": "A failed linear-programming run is not passed off as a schedule", "statement": "If the solver reports failure, compilation does not continue with an unbuffered design.", "quantifier": "every solver outcome", "why_tests_cant": "solver failures are hard to provoke", "anchors": ["src/model/dfcir/lib/dfcir/passes/DFCIRLinearSchedulerPass.cpp"]}
{"id": "C31", "title": "Two schedulers, same function", "statement": "The designs produced by ASAP and by the linear scheduler compute the same output streams up to each output's own latency.", "quantifier": "every program and both schedulers", "why_tests_cant": "equivalence over infinite streams", "anchors": ["src/model/dfcir/lib/dfcir/passes/DFCIRASAPSchedulerPass.cpp", "src/model/dfcir/lib/dfcir/passes/DFCIRLinearSchedulerPass.cpp"]}
{"id": "C32", "title": "Constants and scalar inputs need no buffering", "statement": "Skipping buffers on edges leaving constants and scalar inputs never changes an output value.", "quantifier": "every program and schedule", "why_tests_cant": "infinite streams", "anchors": ["src/model/dfcir/lib/dfcir/passes/DFCIRScheduleUtils.cpp", "src/model/dfcir/lib/dfcir/passes/DFCIRPipelineUtils.cpp"]}
{"id": "C33", "title": "Combinational pipelining is balanced", "statement": "With n > 0 pipeline stages, all register-counted paths from stream inputs to any given node carry the same number of registers, and every output in the final layer is delayed by exactly n cycles.", "quantifier": "every acyclic program, every n, every outcome of the floating-point load balancing", "why_tests_cant": "floating-point decisions and unbounded graphs", "anchors": ["src/model/dfcir/lib/dfcir/passes/DFCIRCombPipelinePass.cpp", "src/model/dfcir/lib/dfcir/passes/DFCIRPipelineUtils.cpp"]}
{"id": "C34", "title": "Combinational pipelining aligns all outputs", "statement": "With n > 0 stages every output is delayed by exactly n cycles relative to the inputs.", "quantifier": "every acyclic program", "why_tests_cant": "depends on the layer in which an output falls", "anchors": ["src/model/dfcir/lib/dfcir/passes/DFCIRCombPipelinePass.cpp"]}
{"id": "C35", "title": "A buffer is put on the operand it was computed for", "statement": "Inserting a buffer on the i-th operand of an operation replaces exactly that operand; no other operand changes.", "quantifier": "every operand index", "why_tests_cant": "indices beyond the storage type wrap", "anchors": ["src/model/dfcir/include/dfcir/passes/DFCIRGraph.h:insertBuffer"]}
{"id": "C36", "title": "Latency configuration is honoured", "statement": "Each arithmetic/comparison unit gets the latency configured for its kind and type class, 1 if nothing is configured; operations without units (logic, multiplexers, shifts, bit ranges, concatenation) take 0.", "quantifier": "every configuration and operation", "why_tests_cant": "configuration space is a product of many keys", "anchors": ["src/model/dfcir/lib/dfcir/passes/DFCIRScheduleUtils.cpp:applyConfig", "src/model/dfcir/lib/dfcir/passes/DFCIRPassesUtils.cpp", "src/model/dfcxx/lib/dfcxx/dfcir_processor.cpp"]}
{"id": "C37", "title": "Generated module names determine the unit", "statement": "Two operations share a generated module only if they agree on operation kind, operand types, result type and latency.", "quantifier": "every pair of operations", "why_tests_cant": "string injectivity over unbounded widths and operand counts", "anchors": ["src/model/dfcir/lib/dfcir/passes/DFCIRToFIRRTLPass.cpp", "src/model/dfcir/include/dfcir/passes/ModuleDefines.inc"]}
{"id": "C38", "title": "Buffers of the same width and depth are interchangeable", "statement": "A generated FIFO module is shared only between buffers with the same port types.", "quantifier": "every pair of buffers", "why_tests_cant": "depends on which buffer is emitted first", "anchors": ["src/model/dfcir/lib/dfcir/passes/DFCIRToFIRRTLPass.cpp"]}
{"id": "C39", "title": "The generated FIFO is an exact delay line", "statement": "The emitted FIFO of depth L > 0 outputs, at every cycle, the value that was on its input L cycles earlier.", "quantifier": "every depth, width, input stream and cycle", "why_tests_cant": "infinite input streams", "anchors": ["src/model/dfcir/templates/stubs.tpl", "src/model/dfcir/lib/dfcir/passes/FIRRTLStubsGeneratorPass.cpp"]}
{"id": "C40", "title": "Generated cast units convert correctly", "statement": "A generated cast unit outputs, latency cycles later, the operand truncated or extended to the result width according to the signedness.", "quantifier": "every pair of widths, latency and input stream", "why_tests_cant": "infinite input streams; a wrong bit source only shows for changing inputs", "anchors": ["src/model/dfcir/templates/stubs.tpl", "src/model/dfcir/lib/dfcir/passes/FIRRTLStubsGeneratorPass.cpp"]}
{"id": "C41", "title": "Generated binary units implement the named operation", "statement": "For every module name the compiler can emit for a binary operation, the stub generator selects exactly the operator the name was made for (LESSEQ is not taken for LESS), or rejects the module.", "quantifier": "every module name the compiler can generate", "why_tests_cant": "substring dispatch over unbounded names", "anchors": ["src/model/dfcir/lib/dfcir/passes/FIRRTLStubsGeneratorPass.cpp"]}
{"id": "C42", "title": "Constant shifts in hardware", "statement": "Left and right shifts lower to hardware that shifts by the given amount at the operand's width; shifting an unsigned value equals multiplication/division by 2^k at that width, and a right shift of a signed value is arithmetic.", "quantifier": "every width, shift amount and value", "why_tests_cant": "unbounded widths", "anchors": ["src/model/dfcir/lib/dfcir/passes/DFCIRToFIRRTLPass.cpp:ShiftLeftOp,ShiftRightOp"]}
{"id": "C43", "title": "Galois8Mul is multiplication in GF(2^8)", "statement": "The kernel's product of a stream and a constant is the product of polynomials over GF(2) modulo x^8+x^7+x^6+x+1, so it is commutative, associative, distributive over xor, and every non-zero constant is invertible.", "quantifier": "all 2^16 operand pairs, and all triples for the algebraic laws", "why_tests_cant": "2^24 triples; and the general law is algebraic", "anchors": ["src/model/dfcxx/std/dfcxx/std/algebra/galois8mul.h"]}
{"id": "C44", "title": "Table-based and computed Galois multiplication agree", "statement": "For each constant the Kuznechik linear transformation uses, the look-up table equals the computed product for all 256 inputs, so the optimised and unoptimised kernels compute the same function.", "quantifier": "every constant with a table and every byte", "why_tests_cant": "1792 table entries written by hand", "anchors": ["src/model/dfcxx/std/dfcxx/std/crypto/gost_34_12/kuznechik_galois8mul.h"]}
{"id": "C45", "title": "Magma decryption inverts encryption", "statement": "For every 256-bit key and 64-bit block, the Magma decoder applied to the Magma encoder's output returns the block (and conversely).", "quantifier": "2^320 key/block pairs", "why_tests_cant": "cannot be enumerated", "anchors": ["src/model/dfcxx/std/dfcxx/std/crypto/gost_34_12/magma.h"]}
{"id": "C46", "title": "Kuznechik decryption inverts encryption", "statement": "For every 256-bit key and 128-bit block the Kuznechik decoder applied to the Kuznechik encoder's output returns the block (and conversely), with either multiplication back end.", "quantifier": "2^384 key/block pairs", "why_tests_cant": "cannot be enumerated", "anchors": ["src/model/dfcxx/std/dfcxx/std/crypto/gost_34_12/kuznechik.h"]}
{"id": "C47", "title": "Kuznechik key schedule constants", "statement": "The 32 literal round constants of the key schedule are the linear transformation of the numbers 1..32.", "quantifier": "the 32 constants", "why_tests_cant": "needs the algebraic meaning of L; finite but tied to the L model", "anchors": ["src/model/dfcxx/std/dfcxx/std/crypto/gost_34_12/kuznechik.h"]}
{"id": "C48", "title": "Latency-configuration names round-trip", "statement": "Every operation name accepted in the configuration file denotes one operation kind, different names denote different kinds, and every other string is mapped to 'undefined', which can never change a unit's latency.", "quantifier": "every string", "why_tests_cant": "strings are unbounded", "anchors": ["src/options.h:convertFieldToEnum", "src/model/dfcir/lib/dfcir/passes/DFCIRPassesUtils.cpp", "src/model/dfcxx/lib/dfcxx/dfcir_processor.cpp"]}
{"id": "C49", "title": "Each requested artefact goes to its own path", "statement": "The list of output paths passed to the back end has, for each format, exactly the path the user gave for it and the empty string for formats not requested.", "quantifier": "every map from formats to paths", "why_tests_cant": "all subsets of formats", "anchors": ["src/model/dfcxx/lib/dfcxx/utils.cpp:outputPathsToVector"]}
{"id": "C50", "title": "Stream offsets accumulate and vanish", "statement": "Chained offsets act as one offset by their sum, and after scheduling no offset operation remains in the design.", "quantifier": "every chain of offsets", "why_tests_cant": "unbounded chains", "anchors": ["src/model/dfcir/lib/dfcir/passes/DFCIRScheduleUtils.cpp:findNearestNodeValue,eraseOffsets"]}
{"id": "C51", "title": "A malformed simulation input line is reported", "statement": "If a line of the simulation input file is not of the form 'name value', the simulation does not report success with the data read so far silently discarded.", "quantifier": "every kernel, every well-formed document before the malformed line, every malformed line, everything after it", "why_tests_cant": "The position of the bad line and the content around it are unbounded; a test shows one file.", "anchors": ["src/model/dfcxx/lib/dfcxx/simulator.cpp:readInput", "src/model/dfcxx/lib/dfcxx/simulator.cpp:DFCXXSimulator::simulate"]}
{"id": "C52", "title": "Reported latency is the real one", "statement": "The overall latency a scheduling run reports for the top-level kernel is the cycle at which the first element reaches the slowest output.", "quantifier": "every kernel, latency configuration and scheduler", "why_tests_cant": "must hold for every graph and for every solver answer", "anchors": ["src/model/dfcir/lib/dfcir/passes/DFCIRASAPSchedulerPass.cpp", "src/model/dfcir/lib/dfcir/passes/DFCIRLinearSchedulerPass.cpp:schedule"]}
{"id": "C53", "title": "A latency configuration in the documented format is honoured", "statement": "A configuration file written as docs/latency_config.md shows it (operation fields directly in the top-level JSON object) gives every named unit the latency written there.", "quantifier": "every set of fields and every unit kind", "why_tests_cant": "ranges over all configuration documents; the tests and examples only use the undocumented nested form", "anchors": ["docs/latency_config.md", "src/options.h:parseInternalOpsConfig,parseLatencyConfig"]}
{"id": "C54", "title": "Generated arithmetic and comparison units compute the operation", "statement": "A generated adder, subtractor, multiplier or comparator outputs, latency cycles after its operands, the sum, difference, product or comparison of the numbers its operands stand for (signed or unsigned by their types), modulo 2^(result width).", "quantifier": "every operation, operand widths and signedness, result type, latency and input streams", "why_tests_cant": "The stub text depends on three widths, three signednesses and the latency; the failing combinations (signed operands of different widths, mixed signedness, latency 0) are never simulated by the test suite, and values range over 2^(w1+w2).", "anchors": ["src/model/dfcir/templates/stubs.tpl", "src/model/dfcir/lib/dfcir/passes/FIRRTLStubsGeneratorPass.cpp:processBinModule"]}
{"id": "C55", "title": "A DFCIR bit range may be given in either order", "statement": "Lowering dfcir.bits with its two positions in either order selects the bits between them.", "quantifier": "every operand width and every pair of positions", "why_tests_cant": "Tests and the C++ front end only produce ranges with the larger position first; the exchange branch in the lowering is reached only by hand-written DFCIR.", "anchors": ["src/model/dfcir/lib/dfcir/passes/DFCIRToFIRRTLPass.cpp:BitsOpConversionPattern"]}
{"id": "C56", "title": "Magma kernels compute the standard cipher", "statement": "For every key and block, the output of the Magma encoder (decoder) kernel is the encryption (decryption) defined by RFC 8891 / GOST R 34.12-2015, and no other value.", "quantifier": "2^320 key/block pairs", "why_tests_cant": "cannot be enumerated; a wrong round for rare values passes test vectors", "anchors": ["src/model/dfcxx/std/dfcxx/std/crypto/gost_34_12/magma.h"]}
{"id": "C57", "title": "Kuznechik kernels compute the standard cipher", "statement": "For every key and block, and with either multiplication back end, the output of the Kuznechik encoder (decoder) kernel is the encryption (decryption) defined by RFC 7801 / GOST R 34.12-2015, and no other value.", "quantifier": "2^384 key/block pairs", "why_tests_cant": "cannot be enumerated; needs the algebra of GF(2^8)", "anchors": ["src/model/dfcxx/std/dfcxx/std/crypto/gost_34_12/kuznechik.h"]}
{"id": "C58", "title": "Compiled designs compute the kernel's streams", "statement": "For every kernel built through the API, finished and using supported operators and types, and for every latency configuration, compiling it (with ASAP, LP or combinational pipelining) succeeds and gives a circuit which, with the generated library modules, shows on each output port `name` element t of that output's stream in cycle delay(name)+t, for every input stream, every power-up register contents and with a delay independent of the data; in particular the circuit is well typed and has no combinational loop.", "quantifier": "all API histories, latency configurations, enumeration orders of hash containers, input streams, power-up states and cycles", "why_tests_cant": "it is a statement about every kernel and every infinite input stream through the whole tool chain; a test compiles one kernel and simulates finitely many cycles", "anchors": ["src/model/dfcxx/lib/dfcxx/dfcir_builder.cpp:buildModule", "src/model/dfcir/lib/dfcir/passes/DFCIRASAPSchedulerPass.cpp", "src/model/dfcir/lib/dfcir/passes/DFCIRLinearSchedulerPass.cpp", "src/model/dfcir/lib/dfcir/passes/DFCIRCombPipelinePass.cpp", "src/model/dfcir/lib/dfcir/passes/DFCIRToFIRRTLPass.cpp", "src/model/dfcir/lib/dfcir/passes/FIRRTLStubsGeneratorPass.cpp"]}
{"id": "C59", "title": "Simulation predicts the hardware", "statement": "For every kernel built through the API, finished, within the supported operators and types, of width at most 64, and whose operators agree between 64-bit simulation and declared widths (equal-width modular arithmetic, logic, comparisons and right shifts of exact unsigned values, left shifts, multiplexers): for every input document of at most 200 steps the simulator accepts, the binary text the value change dump contains for an output in step t is the bit pattern that output's port shows in cycle delay+t of the compiled circuit fed with the same inputs, for all three scheduling passes, any latency configuration and any power-up state.", "quantifier": "all API histories, input documents, latency configurations, enumeration orders of hash containers (possibly different for simulation and compilation), power-up states and cycles", "why_tests_cant": "it relates two programs (interpreter and generated circuit) over all kernels and all inputs; co-simulation of examples settles finitely many", "anchors": ["src/model/dfcxx/lib/dfcxx/simulator.cpp:simulate", "src/model/dfcxx/lib/dfcxx/kernel.cpp:simulate", "src/model/dfcxx/lib/dfcxx/kernel.cpp:compile", "src/model/dfcir/lib/dfcir/passes/DFCIRToFIRRTLPass.cpp"]}
{"id": "C60", "title": "Every API call returns what it says and changes nothing else", "statement": "In every state reachable through the API, an accepted call that builds an expression (input, output, new variable, binary, unary, comparison, shift, bit range, concatenation, cast, multiplexer, offset) returns exactly one new variable whose operator, parameter, type, kind, name and operands in call order are those of the documented table; every other variable keeps operator, parameter, type, kind, name and operands; a cast to the same type returns its argument; a bit range is rejected exactly when it exceeds the operand's width; an offset is rejected exactly when its operand is not a stream.", "quantifier": "all API histories, all calls and arguments", "why_tests_cant": "ranges over all histories and all arguments, including the frame condition on every other variable", "anchors": ["src/model/dfcxx/lib/dfcxx/vars/var.cpp", "src/model/dfcxx/lib/dfcxx/vars/stream.cpp", "src/model/dfcxx/lib/dfcxx/vars/scalar.cpp", "src/model/dfcxx/lib/dfcxx/vars/constant.cpp", "src/model/dfcxx/lib/dfcxx/io.cpp", "src/model/dfcxx/lib/dfcxx/offset.cpp"]}
{"id": "C61", "title": "Which finished kernels the dialect's verifier accepts", "statement": "For every finished kernel built through the API, the DFCIR block generated for it passes the dialect's operation constraints (checked by MLIR after every pass) if and only if every operand of ~ and unary - is a stream of the result's type, every multiplexer is selected by a stream and every offset is taken of a stream; scalars or constants in these places are accepted by every API call and by check() but make compilation fail. A block that passes still passes after any scheduling pass, whatever buffers are inserted.", "quantifier": "all API histories, enumeration orders of hash containers, schedules and buffer insertions", "why_tests_cant": "ranges over all kernels and all schedules; tests compile finitely many kernels", "anchors": ["src/model/dfcir/include/dfcir/DFCIROperations.td", "src/model/dfcir/include/dfcir/DFCIRTypes.td", "src/model/dfcxx/lib/dfcxx/vars/scalar.cpp", "src/model/dfcxx/lib/dfcxx/dfcir_processor.cpp"]}
{"id": "C62", "title": "Galois multiplier kernels: from source to hardware", "statement": "Constructing std::algebra::Galois8Mul as the top kernel succeeds; what it builds always compiles, and every design the compiler may produce for it (as-soon-as-possible, linear-programming or combinational scheduling, any latency configuration) shows at port \"result\", a fixed number of cycles later, the product of the bytes at \"left\" and \"right\" in GF(2^8) modulo x^8+x^7+x^6+x+1, one per cycle. The same holds for KuznechikGalois8Mul(c), whose port \"out\" shows c times \"in\", for each of the eight coefficients of the cipher; with any other constant the constructor aborts.", "quantifier": "all input streams of bytes/blocks and keys (which may change every cycle), latency configurations, scheduling passes, enumeration orders of hash containers, power-up states and cycles", "why_tests_cant": "a test feeds finitely many blocks to one design produced by one run of the compiler; the claim is about every block, key, schedule, configuration and power-up state", "anchors": ["src/model/dfcxx/std/dfcxx/std/algebra/galois8mul.h:Galois8Mul", "src/model/dfcxx/std/dfcxx/std/crypto/gost_34_12/kuznechik_galois8mul.h:KuznechikGalois8Mul"]}
{"id": "C63", "title": "Magma kernels: from source to hardware", "statement": "Constructing MagmaEncoder (MagmaDecoder) as the top kernel succeeds; what it builds always compiles, and every design the compiler may produce for it shows at its output port, a fixed number of cycles later, the encryption (decryption) under GOST R 34.12-2015 with 64-bit blocks of the block at its input port with the key at port \"key\" in the same cycle, one block per cycle.", "quantifier": "all input streams of bytes/blocks and keys (which may change every cycle), latency configurations, scheduling passes, enumeration orders of hash containers, power-up states and cycles", "why_tests_cant": "a test feeds finitely many blocks to one design produced by one run of the compiler; the claim is about every block, key, schedule, configuration and power-up state", "anchors": ["src/model/dfcxx/std/dfcxx/std/crypto/gost_34_12/magma.h:MagmaEncoder", "src/model/dfcxx/std/dfcxx/std/crypto/gost_34_12/magma.h:MagmaDecoder"]}
{"id": "C64", "title": "Kuznechik kernels: from source to hardware", "statement": "Constructing KuznechikEncoder (KuznechikDecoder), with table-based or with generic field multiplication, as the top kernel succeeds: its hundreds of nested instances, bound through io variables, leave a complete kernel that always compiles, and every design the compiler may produce for it shows at its output port, a fixed number of cycles later, the encryption (decryption) under GOST R 34.12-2015 with 128-bit blocks of the block at its input port with the key at port \"key\" in the same cycle, one block per cycle.", "quantifier": "all input streams of bytes/blocks and keys (which may change every cycle), latency configurations, scheduling passes, enumeration orders of hash containers, power-up states and cycles", "why_tests_cant": "a test feeds finitely many blocks to one design produced by one run of the compiler; the claim is about every block, key, schedule, configuration and power-up state", "anchors": ["src/model/dfcxx/std/dfcxx/std/crypto/gost_34_12/kuznechik.h:KuznechikEncoder", "src/model/dfcxx/std/dfcxx/std/crypto/gost_34_12/kuznechik.h:KuznechikDecoder", "src/model/dfcxx/lib/dfcxx/kernel.cpp:instance"]}
{"id": "C65", "title": "The DOT output draws exactly the kernel", "statement": "For every kernel accepted by check(), the DOT file has one element per node and one numbered arrow per operand, from the element of the operand to the element of the node, and nothing else; ports appear under their names, operators with their symbols, offsets and shifts with their distances; nodes without a name get invented identifiers no two of which are equal, and if ports have distinct names none of which looks invented, no two nodes share an identifier.", "quantifier": "every well-used API history ending in a checked kernel, every enumeration order of the hash set of nodes", "why_tests_cant": "a test compares one drawing; the claim is about every graph and every iteration order of the node set", "anchors": ["src/model/dfcxx/lib/dfcxx/kernel.cpp:compileDot", "src/model/dfcxx/templates/dot.tpl"]}
{"id": "C66", "title": "Artefacts do not depend on each other; the exit code tells the truth", "statement": "A run of the hls command leaves in each requested file exactly the artefact of that format, which depends on the kernel and the scheduling options but not on which other formats are requested; the file is empty if an earlier stage failed; files not requested are not touched; the exit code is 0 exactly if all stages needed for the requested formats succeed (and 1, with no file touched, if the kernel does not pass check()).", "quantifier": "every kernel, every set of requested formats with distinct paths, every scheduling option, every behaviour (including failure) of each stage and of the verifier", "why_tests_cant": "all subsets of formats times all failure points of the pipeline", "anchors": ["src/main.cpp:hlsMain", "src/model/dfcxx/lib/dfcxx/kernel.cpp:compile", "src/model/dfcxx/lib/dfcxx/dfcir_processor.cpp:convertAndPrint"]}
{"id": "C67", "title": "DFCIR text is read back as the module it came from", "statement": "The text written for the unscheduled DFCIR of a kernel (hls --out-dfcir...) is accepted by the DFCIR parser and yields the module that was built: the same kernel name and the same operations with the same operands, types, attribute values and latencies, in the same order. Hence two kernels with the same text have the same DFCIR. The same holds for every well-formed module of the dialect (any operation, any nesting of types, any operand structure, names with any bytes).", "quantifier": "every well-formed module with one kernel over all operations and types of the dialect; every finished kernel built through the API that passes the verifier, every processing order", "why_tests_cant": "unbounded names, constants of any width and sign, type parameters, operand structures", "anchors": ["src/model/dfcir/lib/dfcir/DFCIROperations.cpp:parse/print", "src/model/dfcir/include/dfcir/DFCIROperations.td", "src/model/dfcir/include/dfcir/DFCIRTypes.td", "src/model/dfcxx/lib/dfcxx/dfcir_builder.cpp:translate", "src/model/dfcxx/lib/dfcxx/dfcir_processor.cpp:convertAndPrint"]}
{"id": "C68", "title": "What the hardware computes, exactly", "statement": "For every kernel the back end produces legal hardware for - including those where the hardware deviates from what the operators mean: operands of mixed widths and signedness in arithmetic and comparisons, results wider than both operands, casts between signed and unsigned types of different widths, left shifts of signed values - every output port shows, a fixed number of cycles later and for every element that is defined, exactly the value given by the hardware meaning of its operators: operands read with the signedness of the result, arithmetic modulo 2^(wider operand), comparisons on zero-extended operands, left shifts that keep the sign bit. Where these meanings agree with the operators on the values that occur (for instance no signed left shift overflows), the output is the kernel's stream.", "quantifier": "every API history and finished kernel, every latency file, the three scheduling passes, every enumeration of hash containers, every solver answer, every stage count, every input stream, every register power-up content, all widths and signednesses", "why_tests_cant": "all widths, signednesses and values of all operands over unbounded streams and schedules", "anchors": ["src/model/dfcir/lib/dfcir/passes/DFCIRToFIRRTLPass.cpp", "src/model/dfcir/lib/dfcir/passes/FIRRTLStubsGeneratorPass.cpp", "src/model/dfcir/templates/stubs.tpl", "src/model/dfcir/lib/dfcir/passes/DFCIRASAPSchedulerPass.cpp", "src/model/dfcir/lib/dfcir/passes/DFCIRLinearSchedulerPass.cpp", "src/model/dfcir/lib/dfcir/passes/DFCIRCombPipelinePass.cpp"]}
{"id": "C69", "title": "The small example kernels compute what their names say", "statement": "Compiled to hardware, AddConst shows 3x+5, Polynomial2 x^2+2x, Scalar3 the scalar product of two 3-vectors, MatrixMul2 the four elements of the product of two 2x2 matrices, MuxMul 2x or 0 depending on the control input (all modulo 2^32), a fixed number of cycles after the inputs, for every design any of the three scheduling passes may produce; MovingSum shows x[t-1]+x[t]+x[t+1] for every t >= 1 under the ASAP and LP schedules.", "quantifier": "every latency file, every pass and schedule, every enumeration of hash containers, every solver answer, every stage count, every input stream, every register power-up content", "why_tests_cant": "2^32 values per input and cycle, unbounded streams, every latency configuration", "anchors": ["examples/addconst/addconst.h", "examples/polynomial2/polynomial2.h", "examples/scalar3/scalar3.h", "examples/matrixmul2/matrixmul2.h", "examples/muxmul/muxmul.h", "examples/movingsum/movingsum.h"]}
{"id": "C70", "title": "RowIDCT is the row transform of the reference inverse DCT", "statement": "In every design that the ASAP or LP scheduler produces for the RowIDCT example with at least one stage for integer adders, subtractors and multipliers, output port j shows, a fixed number of cycles after the inputs, element j mod 8 of the row transform (Chen-Wang, 32-bit arithmetic, as in the MPEG reference decoder) of row j div 8 of the 64 signed 16-bit inputs, truncated to 16 bits; compilation always succeeds.", "quantifier": "every latency file with positive latencies of integer arithmetic, every ASAP or LP schedule, every enumeration of hash containers, every solver answer, every input stream, every register power-up content", "why_tests_cant": "2^1024 input blocks per cycle, unbounded streams, every latency configuration", "anchors": ["examples/row_idct/row_idct.h"]}
{"id": "C71", "title": "IDCT is the two-dimensional reference transform with 13-bit intermediate values", "statement": "In every design that the ASAP or LP scheduler produces for the IDCT example with at least one stage for integer adders, subtractors and multipliers, the 576-bit output word holds, a fixed number of cycles after the 768-bit input word, in bits 9k..9k+8 sample k of the inverse DCT (row pass, column pass, clipping to -256..255, as in the MPEG reference decoder, but with intermediate values kept in 13 bits) of the block whose coefficient i is the signed number in bits 12i..12i+11 of the input; compilation always succeeds.", "quantifier": "every latency file with positive latencies of integer arithmetic, every ASAP or LP schedule, every enumeration of hash containers, every solver answer, every input stream, every register power-up content", "why_tests_cant": "2^768 input blocks per cycle, unbounded streams, every latency configuration", "anchors": ["examples/idct/idct.h"]}
{"id": "C72", "title": "The IDCT examples compute the inverse discrete cosine transform", "statement": "Every sample the IDCT example outputs differs from the exact (real-valued) two-dimensional inverse DCT of its block of 12-bit coefficients, clipped to -256..255, by less than one; every output of RowIDCT differs from the exact one-dimensional transform by at most half a unit plus 0.22 per cent of the sum of the magnitudes of the coefficients.", "quantifier": "every block of coefficients and every sample; every row of coefficients", "why_tests_cant": "2^768 blocks; the error bound is a statement about real numbers", "anchors": ["examples/idct/idct.h", "examples/row_idct/row_idct.h"]}
{"id": "C73", "title": "The example Kuznechik kernels encrypt and decrypt as the standard says", "statement": "Every design the compiler produces for the encoders of examples/kuznechik, examples/kuznechik_inst and examples/opt_kuznechik shows, a fixed number of cycles after block and key, the encryption of the block with the key as GOST R 34.12-2015 defines it; for the three decoders, the decryption. Constructing and compiling them always succeeds. In particular, folding the shifts of constant factors on 64 bits while the kernel is built, and the 136-bit result of the substitution layer in the encoders, do not change what is computed.", "quantifier": "every latency file, every schedule (ASAP, LP, combinational), every enumeration of hash containers, every input stream, every register power-up content", "why_tests_cant": "2^384 inputs per cycle, unbounded streams, every latency configuration", "anchors": ["examples/kuznechik/kuznechik_encoder.h", "examples/kuznechik/kuznechik_decoder.h", "examples/kuznechik_inst/kuznechik_enc_inst.h", "examples/kuznechik_inst/kuznechik_dec_inst.h", "examples/opt_kuznechik/opt_kuznechik_encoder.h", "examples/opt_kuznechik/opt_kuznechik_decoder.h", "src/model/dfcxx/lib/dfcxx/vars/constant.cpp:operator<<"]}
{"id": "C74", "title": "Chains of instances compute the composition", "statement": "Let a kernel pass its input through any number of instances of kernels that compute functions on k-bit numbers (each bound to a new stream). Constructing and compiling it succeeds, and every design the compiler produces shows the composition of the functions in the order of the instances; such a kernel can itself be instantiated. In particular the example Polynomial2Inst computes x^2+2x modulo 2^32, and a chain of n instances of Polynomial2 computes (x+1)^(2^n)-1, for every n.", "quantifier": "every number of instances and depth of nesting, every width, every latency file and schedule, every enumeration of hash containers, every input stream, every register power-up content", "why_tests_cant": "unbounded number of instances, widths, streams and configurations", "anchors": ["src/model/dfcxx/include/dfcxx/kernel.h:instance", "examples/polynomial2_inst/polynomial2_inst.h"]}
{"id": "C75", "title": "The command line is understood as documented", "statement": "In hls mode, any sequence of the documented options, in any order and in either notation (--name value, --name=value, --name alone), in which no option with a value is repeated, at most one scheduling strategy and at least one output is given, runs synthesis with exactly what was asked for: the latency file, the scheduler with its number of stages (default: pipeline with 0 stages), and for each requested format the given path or the documented default. The requested files then hold the artefacts of their formats, no other file changes, and the exit code tells success. Any other sequence of such options (two schedulers, no output, a repeated option, an unknown option, a number of stages that is no number) ends with exit code 1 and touches no file. In sim mode the paths are those given, the documented defaults for options without a path, and those of config.json otherwise. Help and version are printed with exit code 0 and nothing runs.", "quantifier": "every sequence of options of any length, every value, every behaviour of the compiler stages, every content of the file system", "why_tests_cant": "unboundedly many argument sequences and values", "anchors": ["src/main.cpp:main", "src/options.h:HlsOptions", "src/options.h:SimOptions", "lib/CLI11/CLI/App.hpp:_parse_arg", "README.md"]}
{"id": "C76", "title": "No command line is silently misread", "statement": "If the program accepts a command line, then it does what the line says: the number of stages is the one written, a value is not dropped, a mode that was asked for is run, and the mode is the first argument.", "quantifier": "every command line", "why_tests_cant": "unboundedly many command lines", "anchors": ["src/options.h:HlsOptions", "lib/CLI11/CLI/App.hpp:_recognize", "lib/CLI11/CLI/App.hpp:_valid_subcommand", "lib/CLI11/CLI/TypeTools.hpp:integral_conversion"]}
{"id": "C77", "title": "Simulating the example kernels", "statement": "For AddConst, Polynomial2, Polynomial2Inst, Scalar3, MatrixMul2 and MuxMul: the simulation succeeds on every file of 1 to 200 steps that mentions every input and gives no input a value that does not fit its width; the dump declares every output with its width, has one section per step, and the section of step t holds for every output exactly one value, the binary text of the same function of the inputs of step t that the compiled hardware shows (3x+5, x^2+2x, the scalar product, the matrix product, 2x or 0, modulo 2^32). MovingSum, RowIDCT, IDCT, Galois8Mul and the Magma and Kuznechik encoders and decoders cannot be simulated: no simulation of them ever writes a step.", "quantifier": "every input file, every order of processing, every enumeration order of the hash table", "why_tests_cant": "32-bit inputs, up to 200 steps, and unordered containers", "anchors": ["src/model/dfcxx/lib/dfcxx/simulator.cpp:simulate,runSim,processOp,writeOutput", "examples/addconst/addconst.h:AddConst", "examples/polynomial2/polynomial2.h:Polynomial2", "examples/scalar3/scalar3.h:Scalar3", "examples/matrixmul2/matrixmul2.h:MatrixMul2", "examples/muxmul/muxmul.h:MuxMul", "examples/movingsum/movingsum.h:MovingSum", "examples/idct/idct.h:IDCT"]}
{"id": "C78", "title": "From the command line to the files: the design delivered is the design proved correct", "statement": "For every finished kernel within what the back end handles and every documented command line of hls mode with -a or -l (for kernels without offsets also with --pipeline N, N below 2^31, or with no scheduler option), naming different files that can be opened: the program ends with exit code 0 or 1; the FIRRTL, library and SystemVerilog files named hold the texts of one and the same design, that design is one the scheduling theorems speak of for the latency configuration file named, the DOT and unscheduled DFCIR files hold the texts of the kernel, no other file changes, and the exit code is 0 exactly if CIRCT accepts the design and, where SystemVerilog is asked for, exports it. Hence for AddConst, Polynomial2, MuxMul, MovingSum, RowIDCT, IDCT, Galois8Mul, Magma and Kuznechik every run of the tool that ends with exit code 0 delivers hardware computing 3x+5, x^2+2x, ..., the inverse DCT, field multiplication, GOST encryption. A kernel with stream offsets is never compiled without -a or -l: exit code 1 and empty files.", "quantifier": "every kernel, every documented command line, every configuration file, every enumeration order of the hash tables, every optimal vertex the LP solver may answer, every behaviour of CIRCT", "why_tests_cant": "unboundedly many kernels, command lines and configuration files, and unordered containers", "anchors": ["src/main.cpp:hlsMain", "src/model/dfcxx/lib/dfcxx/kernel.cpp:Kernel::compile", "src/model/dfcxx/lib/dfcxx/dfcir_processor.cpp:convertAndPrint", "src/options.h:HlsOptions"]}
{"id": "C79", "title": "Simulation mode: the dump file says what the kernel computes", "statement": "For every finished kernel within what the simulator handles, whose stream names are printable words, distinct and not of the form node<number>, every documented command line of sim mode, and every input file of 1 to 200 steps in the documented format that gives every input values that fit: the exit code is 0, no file but the output changes, and the output file is a value change dump (IEEE 1364, 18.2) that a reader accepts, in which every named stream is declared once with its width, is unknown at time 0 and has at time i+1 the value the dataflow semantics gives it for step i; the last time is the number of steps plus one. Whatever the input file: if the simulation succeeds, the dump can be read and shows the recorded values. Without an input file the exit code is 1 and nothing changes; a failing simulation leaves an empty file and exit code 1. Limits: an output file that cannot be opened goes unnoticed (exit code 0); naming the input file as output destroys it (exit code 0); a stream name with a blank makes the dump unreadable.", "quantifier": "every kernel, every documented command line, every input file, every enumeration order of the hash tables, every point in time", "why_tests_cant": "unboundedly many kernels, input files and command lines", "anchors": ["src/main.cpp:simMain", "src/model/dfcxx/lib/dfcxx/kernel.cpp:Kernel::simulate", "src/model/dfcxx/lib/dfcxx/simulator.cpp:DFCXXSimulator::writeOutput", "src/model/dfcxx/lib/dfcxx/simulator.cpp:DFCXXSimulator::genHeader", "src/model/dfcxx/templates/vcd.tpl"]}
{"id": "C80", "title": "The generated Verilog library, read as Verilog, is the library the circuit needs", "statement": "For every finished kernel within what the back end handles and every design the tool makes of it (any scheduler, any latency configuration, latencies up to 2^31): the text of the stub library is Verilog that a reader accepts; its modules have pairwise different names; every module an instance of the circuit refers to and for which a stub exists is in it once, under that name, with the ports the instance has; a module behaves as a Verilog simulator would run its text (IEEE 1364 expression sizes and signs, nonblocking assignments, continuous assignments): the circuit together with the modules read from the text has exactly the runs assumed of it elsewhere, so outputs are the kernel's streams, delayed. The library file left by a run of the tool holds such a text. A binary unit with a signed result and without registers is not legal Verilog (it refers to r[-1] of a wire), so such a circuit has no run.", "quantifier": "every kernel, every design, every width, latency and operator, every power-up content of registers, every input stream, every generation time text without line break", "why_tests_cant": "unboundedly many widths, latencies, module sets, and infinite runs", "anchors": ["src/model/dfcir/templates/stubs.tpl", "src/model/dfcir/lib/dfcir/passes/FIRRTLStubsGeneratorPass.cpp:processFIFOModule,processSimpleCastModule,processBinModule,fillDictionary,generateOutput", "src/model/dfcir/lib/dfcir/passes/DFCIRToFIRRTLPass.cpp:createModule,constructModuleName"]}
{"id": "C81", "title": "The scheduled DFCIR text describes the very design that is built", "statement": "For every finished kernel the back end handles, every scheduler (-a, -l, --pipeline N, none) and every latency configuration: the text written to the scheduled DFCIR file exists and is well formed; reading it back gives the operations printed (buffers in front of their readers, offsets gone, latencies of the configuration); converting what was read to FIRRTL succeeds and gives the circuit that the tool makes of its in-memory scheduled block, with the values numbered as in the text. Hence the design made from the text computes the streams of the kernel whenever the delivered design does; for MovingSum, RowIDCT and IDCT the text describes the moving sum and the inverse DCT. The scheduled file left by a run of the tool holds such a text.", "quantifier": "every kernel, scheduler, latency configuration, enumeration order of the buffer map and of the graph, every optimal vertex of the solver, every way the reader may settle two equal latencies", "why_tests_cant": "unboundedly many kernels and insertion orders; agreement of two designs concerns infinite runs", "anchors": ["src/model/dfcir/include/dfcir/passes/DFCIRGraph.h:insertBuffer,insertBuffers", "src/model/dfcir/lib/dfcir/passes/DFCIRPassesUtils.cpp:eraseOffsets", "src/model/dfcir/lib/dfcir/passes/DFCIRScheduleUtils.cpp:applyConfig", "src/model/dfcxx/lib/dfcxx/dfcir_processor.cpp:convertAndPrint", "src/model/dfcir/include/dfcir/DFCIROperations.td", "src/model/dfcir/lib/dfcir/passes/DFCIRToFIRRTLPass.cpp"]}
{"id": "C82", "title": "The schedulers' 32-bit arithmetic does not overflow", "statement": "The passes compute start times, sums of offsets and buffer lengths in int32_t, where overflow is undefined. For every kernel with (longest latency + sum of the absolute values of the offsets) * (number of operations + 1) < 2^31 -- whatever the latency configuration if (65535 + sum of offsets) * (number of nodes + 1) < 2^31, for instance up to 32766 nodes without offsets -- no addition of the ASAP pass or of the search for the nearest node overflows, the results are the exact ones, and every buffer inserted by the ASAP pass, by the linear scheduler at a vertex of its problem, or by the combinational pipeliner with fewer than 2^31 stages is shorter than 2^31 cycles. Beyond the bound there are kernels, all of whose offsets fit, for which the arithmetic overflows.", "quantifier": "every well-formed kernel, latency assignment, and vertex of the linear program", "why_tests_cant": "unboundedly many kernels; overflow shows only at extreme sizes", "anchors": ["src/model/dfcir/lib/dfcir/passes/DFCIRASAPSchedulerPass.cpp", "src/model/dfcir/lib/dfcir/passes/DFCIRScheduleUtils.cpp:findNearestNodeValue", "src/model/dfcir/lib/dfcir/passes/DFCIRLinearSchedulerPass.cpp", "src/model/dfcir/lib/dfcir/passes/DFCIRPipelineUtils.cpp:calculateFIFOs"]}
{"id": "C83", "title": "Linear scheduling inserts the least buffering", "statement": "Of all correct schedules the linear scheduler (-l) should choose one that inserts the fewest register stages, in particular no more than the ASAP scheduler (-a). True of kernels without scalar inputs whose constants are each read once, among the schedules in which no operation starts before one it reads (all correct schedules are such if no operand lies further in the past than the operation it comes from takes). False in general: (a) the objective counts the distances from constants, which cost no registers, so a constant with several readers can pull operations late: there is a kernel for which ASAP inserts nothing and the linear scheduler five stages; (b) the distance variables cannot be negative, so an operand from the past makes every optimal solution worse than ASAP: there is a kernel for which ASAP inserts five stages and the linear scheduler fifteen.", "quantifier": "every well-formed kernel, latency assignment, optimal answer of the solver, and competing schedule", "why_tests_cant": "minimality over all schedules of all kernels", "anchors": ["src/model/dfcir/lib/dfcir/passes/DFCIRLinearSchedulerPass.cpp:schedule", "src/model/dfcir/lib/dfcir/passes/DFCIRLPUtils.cpp:setObjective"]}
{"id": "C84", "title": "The interface of the generated module depends on the kernel only", "statement": "For every finished kernel, scheduler (-a, -l, -p with any number of stages) and latency configuration, the generated module has exactly one port per input and output of the kernel -- with the name given in the API, the direction, the width and the signedness of its type -- followed by the clock `clk`; scheduling neither adds, drops, renames nor reorders ports, and they are the ports of the circuit whose behaviour C58/C68/C81 describe. Two runs of the tool on one kernel have the same ports up to order. The port names are distinct exactly if the kernel's names are distinct and none is `clk`. What does not hold: the order of the ports depends on the enumeration of a hash set of pointers, and the API and check() accept duplicate names and a stream named `clk`.", "quantifier": "every finished kernel, scheduling pass, latency configuration, answer of the solver and enumeration of the hash sets", "why_tests_cant": "all kernels, schedules and hash-set enumerations", "anchors": ["src/model/dfcir/lib/dfcir/passes/DFCIRToFIRRTLPass.cpp:KernelOpConversionPattern", "src/model/dfcir/include/dfcir/passes/ModuleDefines.inc:CLOCK_ARG", "src/model/dfcir/include/dfcir/DFCIROperations.td", "src/model/dfcxx/lib/dfcxx/graph.cpp"]}
{"id": "C85", "title": "The library deletes no object twice and uses no deleted object", "statement": "Whatever sequence of API calls builds a kernel (instances nested to any depth, any bindings, provided no instance reads one of its own bound outputs or connects into one of its bound inputs), at every point of the sequence no graph or storage refers to a variable, node or channel that has been deleted, and when the top kernel is destroyed - its hash sets being enumerated in any order - every node ever created has been deleted exactly once, no variable or channel twice, and every channel still attached to a node is deleted. What does not hold: the library leaks the variables of deleted nodes (the bound ports of every instance and the shallow variables bound to instance outputs) and the channel of an instance output bound to a shallow variable; and an instance that reads its own bound output leaves a live node pointing to a deleted one.", "quantifier": "every history of API calls with clean instances, every nesting depth, every enumeration order of the hash sets", "why_tests_cant": "double deletion and dangling pointers depend on the whole history of calls and instances and show up, if at all, as undefined behaviour; a test exercises one history on one allocator", "anchors": ["src/model/dfcxx/lib/dfcxx/graph.cpp: Graph::~Graph, deleteNode, rebindInput, rebindOutput, transferFrom", "src/model/dfcxx/lib/dfcxx/kernel.cpp: Kernel::deleteNode, rebindInput, rebindOutput", "src/model/dfcxx/lib/dfcxx/kernel_storage.cpp: addVariable, deleteVariable, transferFrom, ~KernelStorage", "src/model/dfcxx/include/dfcxx/kernel.h: instance, ~Kernel"]}
{"id": "C86", "title": "Kernel objects of one program do not disturb each other", "statement": "For every sequence of constructions and destructions of kernel objects in which the oldest live kernel is destroyed last (nested use, as by instance()), the library takes exactly the oldest live kernel for the top one; and after all kernel objects are destroyed, in whatever order, the library is as at the start of the program, so kernels built one after another are independent. What does not hold: if the oldest kernel is destroyed while another is alive no kernel is the top one (constants dereference a null pointer) and every type constructor uses the destroyed object; and a kernel constructed while an unrelated one is alive puts its constants into the other kernel's graph, so that if any of its nodes reads a constant it can never be translated.", "quantifier": "every sequence of constructions and destructions of any number of kernel objects; every API history and every visiting order for the constants", "why_tests_cant": "the static state depends on the entire history of object lifetimes in the process; tests build one kernel at a time", "anchors": ["src/model/dfcxx/lib/dfcxx/kernel.cpp: Kernel::Kernel, kernelStack", "src/model/dfcxx/lib/dfcxx/kernel_meta.cpp: KernelMeta::top", "src/model/dfcxx/include/dfcxx/kernel.h: getTopKernel, ~Kernel", "src/model/dfcxx/lib/dfcxx/vars/constant.cpp: createOrUseConst"]}
{"id": "C87", "title": "The Verilog library file of every standard-library and example kernel, with the circuit, computes the kernel's function", "statement": "For every kernel of the standard library and of the examples (Magma, Kuznechik, GF(2^8) multiplication, moving sum, row and full inverse DCT, polynomial, matrix product, scalar product, multiplexer, constants, the encryption examples and the nested-instance example), every documented command line with --out-sv-lib and a scheduling option, and every latency configuration with at most 65535 stages per unit (732 for Kuznechik, whose 2.9 million operations would otherwise let 32-bit times overflow): the run ends, and if CIRCT accepts the circuit the library file parses as Verilog modules with pairwise different names with which the circuit has a run for all inputs, and every run shows the kernel's function (the GOST ciphers, the field product, the inverse DCT, ...) on its output after a fixed delay. The number of operations of each kernel is bounded by an explicit constant, and no buffer depth or register count leaves the 32-bit range.", "quantifier": "all command lines, latency configurations within the bound, input streams, power-up states, enumeration orders, LP solver answers; all file system contents", "why_tests_cant": "the library text depends on every latency and buffer depth the schedulers compute, and the claim is about all input streams of modules obtained by reading that text; simulation covers a few configurations and vectors", "anchors": ["src/model/dfcir/templates/stubs.tpl", "src/model/dfcir/lib/dfcir/passes/FIRRTLStubsGeneratorPass.cpp", "src/model/dfcxx/std/dfcxx/std: kernels", "examples/**", "src/main.cpp", "src/model/dfcir/lib/dfcir/passes/DFCIRScheduleUtils.cpp"]}
{"id": "C88", "title": "The DOT file is DOT, and shows the kernel", "statement": "The file written for --out-dot, read according to the DOT language, is a directed graph with the name of the kernel: its nodes are the nodes of the kernel, each once, with the shape and label of their operation; its edges are the operands, numbered in order; ports appear under their names.", "quantifier": "every kernel built through the API with nothing left open and accepted by the check, every enumeration of its nodes, every name of the kernel and of its ports, every time stamp", "why_tests_cant": "whether a text is accepted by DOT readers depends on all the names in it; a test with harmless names says nothing about a port called edge or node0, and sets are enumerated in an arbitrary order", "anchors": ["src/model/dfcxx/lib/dfcxx/kernel.cpp: Kernel::compileDot", "src/model/dfcxx/templates/dot.tpl"]}
{"id": "C89", "title": "Configuration files are read as JSON", "statement": "A latency file or config.json is accepted if and only if it is a JSON text in the sense of RFC 8259 with UTF-8 strings (possibly after a byte order mark, possibly followed by a zero byte and anything), whose numbers outside the 64-bit integers have a finite double; the value read is the one the text denotes (escapes, surrogate pairs, last member wins). If the last member dfcir is an object of integers, every unit whose kind it names gets the last number given for it (modulo 2^16), every other unit 1, and operations without units 0; the simulator starts with the last paths in and out of the last member sim. Any other file ends the program with an exception nobody catches.", "quantifier": "all byte sequences of a file; all JSON values of any depth; all operation kinds", "why_tests_cant": "the set of texts is infinite and nested without bound; acceptance of malformed UTF-8, lone surrogates, leading zeros or truncated files shows only for the one text that has them", "anchors": ["src/options.h: AppOptions::read, HlsOptions::parseLatencyConfig, parseInternalOpsConfig, parseExternalOpsConfig, SimOptions::fromJson, Options::fromJson", "lib/json/nlohmann/detail/input/lexer.hpp: scan, scan_string, scan_number, get_codepoint, skip_bom", "lib/json/nlohmann/detail/input/parser.hpp: sax_parse_internal", "lib/json/nlohmann/detail/conversions/from_json.hpp", "config.json", "examples/**/*.json"]}
{"id": "C90", "title": "From the bytes on disk to the files written", "statement": "Started with a documented command line and whatever files are on the disk, the program reads its configuration file (or finds none), reads the latency file the options name (or finds none), and then compiles the kernel with exactly the latencies the bytes of that file give: it ends with exit code 0 or 1, the files named hold the texts of one design scheduled with those latencies (which computes the streams of the kernel), and no other file changes. In sim mode it reads and writes the paths of the options, or else those of the configuration file. An unusable configuration file ends the process with an exception whatever the arguments, an unusable latency file before anything is written.", "quantifier": "all contents of all files; all documented command lines; every finished kernel within what the back end handles, every kernel of the standard library and the examples; every enumeration order, solver answer and behaviour of CIRCT", "why_tests_cant": "the combinations of file contents, options and kernels are infinite; a test fixes one disk, one command line and one kernel", "anchors": ["src/main.cpp: main, hlsMain, simMain", "src/options.h: Options::initialize, AppOptions::read, HlsOptions::parseLatencyConfig, Options::fromJson", "src/CMakeLists.txt: JSON_CONFIG_PATH", "src/model/dfcxx/lib/dfcxx/kernel.cpp: Kernel::compile, Kernel::simulate"]}
{"id": "C91", "title": "Floating-point kernels simulate as IEEE 754", "statement": "In a simulation of a kernel of type dfFloat(11, 52), every stream computed by +, -, *, / or unary minus holds at every time step exactly the bits IEEE 754 defines for binary64 with rounding to nearest, ties to even, of the values its operands hold at that step (signed zeros, infinities, subnormal numbers and NaN included; for a NaN, that it is one); and every comparison holds 1 exactly if the standard says it holds.", "quantifier": "all finished kernels the API can build, all enumeration orders, all input streams, all numbers of steps, all 64-bit operand values", "why_tests_cant": "the operand values, the rounding cases, the kernels and the streams cannot be enumerated; a wrong tie, a lost sign of zero or a double rounding shows for single operand pairs out of 2^128 only", "anchors": ["src/model/dfcxx/lib/dfcxx/simulator.cpp:77-190: GENERIC_BINARY_OP_SIM_WITH_TYPE, processNegOp", "src/model/dfcxx/lib/dfcxx/types/float.cpp: FloatType", "src/model/dfcxx/lib/dfcxx/vars/stream.cpp: operator<, operator==", "src/model/dfcir/lib/dfcir/passes/DFCIRPipelineUtils.cpp:153-215"]}
{"id": "C92", "title": "Floating-point kernels compute IEEE 754 in hardware", "statement": "In the generated circuit of a kernel on dfFloat(11, 52) the output ports carry, after the latency of the design, at every cycle exactly the bits IEEE 754 defines for the operators of the kernel on the values of the input ports, whatever latencies are configured for the floating-point units and whichever scheduler is used.", "quantifier": "all kernels, all 64-bit operand values and input streams, all schedulers, all latency configurations, all cycles", "why_tests_cant": "operand values, latencies and designs cannot be enumerated; a unit that treats the bits as integers is right for some operands (comparisons of positive numbers, x + 0), so samples may pass", "anchors": ["src/model/dfcir/lib/dfcir/passes/DFCIRToFIRRTLPass.cpp:78-81: conversion of DFCIRFloatType", "src/model/dfcir/lib/dfcir/passes/DFCIRPassesUtils.cpp:29-57: resolveInternalOpType", "src/model/dfcir/templates/stubs.tpl"]}
