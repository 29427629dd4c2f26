import Verif.Json.Latency
/-
C89: the files of the repository, and files that are not read as one might expect.
-/
namespace Verif.Json
open Verif.Config

/-- A file that is read, has no zero byte and no byte order mark is a JSON text. -/
theorem jsonText_of_parse {fin : Bytes → Bool} {v : Val} {s : Bytes} (h : parse fin s = some v) (h0 : 0 ∉ s) (hb : s.head? ≠ some 0xEF) : JsonText fin v s := by
  obtain ⟨t, e, h1, h2, h3⟩ := parse_iff.mp h
  rcases h3 with rfl | rfl
  · rcases h2 with rfl | ⟨r, rfl⟩
    · rw [List.append_nil]; exact h1
    · simp at h0
  · exact absurd rfl hb

/-- /repo/examples/scalar3/add_int_2_mul_int_3.json. -/
def add2mul3 : Bytes := bytes "{\n  \"dfcir\": {\n    \"ADD_INT\": 2,\n    \"MUL_INT\": 3\n  }\n}\n"

/-- The members of `dfcir`. -/
def add2mul3Ops : List (Bytes × Val) := [(bytes "ADD_INT", .unsigned 2), (bytes "MUL_INT", .unsigned 3)]

set_option maxRecDepth 20000 in
theorem add2mul3_text (fin : Bytes → Bool) : JsonText fin (.obj (object [(bytes "dfcir", .obj (object add2mul3Ops))])) add2mul3 :=
  jsonText_of_parse rfl (by decide +kernel) (by decide +kernel)

/-- What `latency_of_file` says of it. -/
theorem add2mul3_latency (D : Doubles) (k : Kind) (f : Bool) :
    (∀ n, fieldName k f = some n →
      (∀ v z, lastOf (bytes n) add2mul3Ops = some v → IsNumber v z → fileLatency D (some add2mul3) k f = .ok (z % 65536).toNat) ∧
      (lastOf (bytes n) add2mul3Ops = none → fileLatency D (some add2mul3) k f = .ok 1)) ∧
    (fieldName k f = none → fileLatency D (some add2mul3) k f = .ok 0) :=
  latency_of_file (add2mul3_text D.finite) (.inl rfl) (.inl (List.append_nil _).symm) rfl (by decide +kernel)
    (fun k v h => by
      unfold lastOf at h
      simp only [Option.map_eq_some_iff] at h
      obtain ⟨p, hp, rfl⟩ := h
      have hm := (List.mem_filter.mp (List.mem_of_getLast? hp)).1
      simp only [add2mul3Ops, List.mem_cons, List.not_mem_nil, or_false] at hm
      rcases hm with rfl | rfl
      · exact ⟨_, .unsigned 2⟩
      · exact ⟨_, .unsigned 3⟩) k f

example (D : Doubles) : fileLatency D (some add2mul3) .add false = .ok 2 :=
  (((add2mul3_latency D .add false).1 "ADD_INT" rfl).1 (.unsigned 2) 2 rfl (.unsigned 2))
example (D : Doubles) : fileLatency D (some add2mul3) .sub false = .ok 1 :=
  ((add2mul3_latency D .sub false).1 "SUB_INT" rfl).2 (by decide +kernel)
example (D : Doubles) : fileLatency D (some add2mul3) .cat false = .ok 0 := (add2mul3_latency D .cat false).2 rfl

/-- /repo/config.json. -/
def configJson : Bytes := List.flatMap bytes [
  "{\n",
  "  \"hls\": {\n",
  "    \"config\"             : \"\",\n",
  "    \"asap_scheduler\"     : false,\n",
  "    \"lp_scheduler\"       : false,\n",
  "    \"pipeline_scheduler\" : 0,\n",
  "    \"out_sv\"             : \"\",\n",
  "    \"out_sv_lib\"         : \"\",\n",
  "    \"out_dfcir\"          : \"\",\n",
  "    \"out_scheduled_dfcir\": \"\",\n",
  "    \"out_firrtl\"         : \"\",\n",
  "    \"out_dot\"            : \"\"\n",
  "  },\n",
  "  \"sim\": {\n",
  "    \"in\"           : \"sim.txt\",\n",
  "    \"out\"          : \"sim_out.vcd\"\n",
  "  }\n",
  "}\n"]

def simMembers : List (Bytes × Val) := [(bytes "in", .str (bytes "sim.txt")), (bytes "out", .str (bytes "sim_out.vcd"))]

def hlsMembers : List (Bytes × Val) :=
  [(bytes "config", .str []), (bytes "asap_scheduler", .bool false), (bytes "lp_scheduler", .bool false), (bytes "pipeline_scheduler", .unsigned 0),
    (bytes "out_sv", .str []), (bytes "out_sv_lib", .str []), (bytes "out_dfcir", .str []), (bytes "out_scheduled_dfcir", .str []),
    (bytes "out_firrtl", .str []), (bytes "out_dot", .str [])]

theorem configJson_parse (fin : Bytes → Bool) :
    parse fin configJson = some (.obj (object [(bytes "hls", .obj (object hlsMembers)), (bytes "sim", .obj (object simMembers))])) := by
  run_tac do
    let g ← Lean.Elab.Tactic.getMainGoal
    match (← g.getType).eq? with
    | some (ty, lhs, _) => g.assign (Lean.mkApp2 (Lean.mkConst ``Eq.refl [1]) ty lhs)
    | none => throwError "not an equation"

set_option maxRecDepth 100000 in
theorem configJson_text (fin : Bytes → Bool) :
    JsonText fin (.obj (object [(bytes "hls", .obj (object hlsMembers)), (bytes "sim", .obj (object simMembers))])) configJson :=
  jsonText_of_parse (configJson_parse fin) (by decide +kernel) (by decide +kernel)

/-- The paths the simulator starts with. -/
theorem shipped_startup (D : Doubles) : startup D (some configJson) = .ok ⟨some "sim.txt", some "sim_out.vcd"⟩ := by
  have := startup_of_file (configJson_text D.finite) (.inl rfl) (.inl (List.append_nil _).symm) (sim := simMembers) rfl
    (a := bytes "sim.txt") (b := bytes "sim_out.vcd") rfl rfl
  rwa [name_bytes, name_bytes] at this

/-! ### Files that are not read as one might expect -/

/-- The latency of an integer addition with a given text after `"ADD_INT":`. -/
def addFile (x : String) : Bytes := bytes ("{\"dfcir\":{\"ADD_INT\":" ++ x ++ "}}")

/-- `true` is 1; -1 is 65535; 70000 is 4464; a string, `null`, an object or an array ends the program. -/
theorem odd_values (D : Doubles) :
    fileLatency D (some (addFile "true")) .add false = .ok 1 ∧ fileLatency D (some (addFile "-1")) .add false = .ok 65535 ∧
    fileLatency D (some (addFile "70000")) .add false = .ok 4464 ∧ fileLatency D (some (addFile "\"2\"")) .add false = .error .exception ∧
    fileLatency D (some (addFile "null")) .add false = .error .exception ∧ fileLatency D (some (addFile "{}")) .add false = .error .exception ∧
    fileLatency D (some (addFile "[]")) .add false = .error .exception :=
  ⟨rfl, rfl, rfl, rfl, rfl, rfl, rfl⟩

/-- A number with a fraction is cut off; one that does not fit is undefined behaviour. -/
theorem fractions (D : Doubles) (hf : ∀ t, D.finite t = true) (h25 : D.trunc (bytes "2.5") = 2) (h1e9 : D.trunc (bytes "1e9") = 1000000000) :
    fileLatency D (some (addFile "2.5")) .add false = .ok 2 ∧ fileLatency D (some (addFile "1e9")) .add false = .error .undefined := by
  obtain ⟨fin, trunc⟩ := D
  obtain rfl : fin = fun _ => true := funext hf
  replace h25 : trunc (bytes "2.5") = 2 := h25
  replace h1e9 : trunc (bytes "1e9") = 1000000000 := h1e9
  have p1 : parse (fun _ => true) (addFile "2.5") = some (.obj [(bytes "dfcir", .obj [(bytes "ADD_INT", .float (bytes "2.5"))])]) := rfl
  have p2 : parse (fun _ => true) (addFile "1e9") = some (.obj [(bytes "dfcir", .obj [(bytes "ADD_INT", .float (bytes "1e9"))])]) := rfl
  have hl : ∀ v, (Val.obj [(bytes "dfcir", .obj [(bytes "ADD_INT", v)])]).field (bytes "dfcir") = some (.obj [(bytes "ADD_INT", v)]) := fun _ => rfl
  have hx : ∀ v, (Val.obj [(bytes "dfcir", .obj [(bytes "ADD_INT", v)])]).field (bytes "external") = none := fun _ => rfl
  unfold fileLatency readLatencies
  simp only [p1, p2, parseInternalOps, parseExternalOps, hl, hx, Val.items, List.foldlM_cons, List.foldlM_nil, toUint16, h25, h1e9]
  rw [if_pos (by decide), if_neg (by decide)]
  exact ⟨rfl, rfl⟩

/-- An array of numbers configures nothing: its "names" are the positions. -/
theorem array_configures_nothing (D : Doubles) : fileLatency D (some (bytes "{\"dfcir\":[7,8]}")) .add false = .ok 1 := rfl

/-- A number in place of the object is an unnamed field: nothing is configured. -/
theorem number_configures_nothing (D : Doubles) : fileLatency D (some (bytes "{\"dfcir\":7}")) .add false = .ok 1 := rfl

/-- The last of several values counts; what follows a zero byte is not read. -/
theorem last_counts (D : Doubles) :
    fileLatency D (some (bytes "{\"dfcir\":{\"ADD_INT\":2,\"ADD_INT\":5}}" ++ 0 :: bytes "}}}")) .add false = .ok 5 := rfl

/-- Not JSON: a comment, a comma too many, a leading zero, a single quote, nothing at all. -/
theorem not_json (D : Doubles) :
    fileLatency D (some (bytes "// latencies\n{}")) .add false = .error .exception ∧
    fileLatency D (some (bytes "{\"dfcir\":{\"ADD_INT\":2,}}")) .add false = .error .exception ∧
    fileLatency D (some (addFile "02")) .add false = .error .exception ∧
    fileLatency D (some (bytes "{'dfcir':{}}")) .add false = .error .exception ∧
    fileLatency D (some []) .add false = .error .exception ∧
    fileLatency D (some (bytes "{} {}")) .add false = .error .exception :=
  ⟨rfl, rfl, rfl, rfl, rfl, rfl⟩

/-- Any `external` member that is not made of numbers ends the program, although nothing uses it. -/
theorem external_matters (D : Doubles) : fileLatency D (some (bytes "{\"external\":{\"DIV\":\"slow\"}}")) .add false = .error .exception := rfl

/-- config.json without a member `sim`, or with one that is not an object, sets no path; a path that is not a string ends the program. -/
theorem startup_odd (D : Doubles) :
    startup D (some (bytes "{\"hls\":{}}")) = .ok ⟨none, none⟩ ∧ startup D (some (bytes "null")) = .ok ⟨none, none⟩ ∧
    startup D (some (bytes "{\"sim\":[1]}")) = .ok ⟨none, none⟩ ∧ startup D (some (bytes "[]")) = .error .exception ∧
    startup D (some (bytes "{\"sim\":{\"in\":1}}")) = .error .exception :=
  ⟨rfl, rfl, rfl, rfl, rfl⟩

end Verif.Json
