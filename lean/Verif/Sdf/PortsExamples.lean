import Verif.Sdf.Ports
import Verif.Dfcxx.WorldExamples
/-
C84: concrete kernels.
-/
namespace Verif.Sdf
open Verif.Dfcxx Verif.Flow Verif.Sched Verif.Hw

/-- `out = p + q` with inputs named `p` and `q`, the output named `r`. -/
def addCmds (p q r : String) : List Cmd :=
  [.input false p (.fixed false 8 0), .input false q (.fixed false 8 0), .output false r (.fixed false 8 0), .bin .ADD 0 1, .connect 2 3]

/-- The kernel those calls make. -/
def addWorld (F : FloatOps) (p q r : String) : World := after F (addCmds p q r)

def addGraph (F : FloatOps) (p q r : String) : KGraph := ((addWorld F p q r).stack.head?).getD ⟨0, [], [], []⟩

theorem add_hist (F : FloatOps) (p q r : String) : ∀ n, n ≤ 5 → Hist F Proper World.init (after F ((addCmds p q r).take n))
  | 0, _ => .nil _
  | n + 1, h => by
    have hn : n < (addCmds p q r).length := h
    obtain ⟨rs, he⟩ : ∃ rs, (after F ((addCmds p q r).take n)).exec F ((addCmds p q r)[n]'hn) = .ok (after F ((addCmds p q r).take (n + 1)), rs) := by
      match n, hn with
      | 0, _ | 1, _ | 2, _ | 3, _ | 4, _ => exact ⟨_, rfl⟩
    refine .snoc _ (add_hist F p q r n (by omega)) ?_ he
    match n, hn with
    | 0, _ | 1, _ | 2, _ | 3, _ => exact proper_simple (Or.inl rfl)
    | 4, _ =>
      refine ⟨⟨trivial, ⟨(fun e => by cases e), fun d => ?_⟩, Or.inl rfl⟩, trivial⟩
      rcases dep_cases d with e | ⟨c, hc, d⟩
      · cases e
      have hc : c ∈ [0, 1] := hc
      have d : (after F ((addCmds p q r).take 4)).Dep 2 0 ∨ (after F ((addCmds p q r).take 4)).Dep 2 1 := by
        simp only [List.mem_cons, List.not_mem_nil, or_false] at hc
        rcases hc with rfl | rfl
        · exact .inl d
        · exact .inr d
      rcases d with d | d
      all_goals
        rcases dep_cases d with e | ⟨c, hc, d⟩
        · cases e
        · cases hc

theorem add_nodes (F : FloatOps) (p q r : String) : (addGraph F p q r).nodes = [3, 2, 1, 0] := rfl

theorem add_finished (F : FloatOps) (p q r : String) : Finished (addWorld F p q r) (addGraph F p q r) := by
  refine ⟨rfl, rfl, ?_, ?_⟩
  · intro n hn hop
    have hn : n ∈ [3, 2, 1, 0] := hn
    simp only [List.mem_cons, List.not_mem_nil, or_false] at hn
    rcases hn with rfl | rfl | rfl | rfl
    · cases hop
    · rfl
    · cases hop
    · cases hop
  · intro n hn hop
    have hn : n ∈ [3, 2, 1, 0] := hn
    simp only [List.mem_cons, List.not_mem_nil, or_false] at hn
    rcases hn with rfl | rfl | rfl | rfl <;> cases hop

/-- The hash set of start nodes enumerated either way. -/
def addEnum (flip : Bool) : TopSort.Graph Nat :=
  ⟨[3, 2, 1, 0], if flip then [1, 0] else [0, 1], fun n => if n = 0 ∨ n = 1 then [3] else if n = 3 then [2] else []⟩

theorem addEnum_ok (F : FloatOps) (p q r : String) (flip : Bool) :
    Enumeration (addWorld F p q r) (addGraph F p q r) (addEnum flip) := by
  refine ⟨List.Perm.refl _, ?_, fun n hn => ?_, fun n hn => ?_⟩
  · have e : (addGraph F p q r).starts = [1, 0] := rfl
    rw [e]
    cases flip
    · exact List.Perm.swap _ _ _
    · exact List.Perm.refl _
  · have hn : n ∈ [3, 2, 1, 0] := hn
    simp only [List.mem_cons, List.not_mem_nil, or_false] at hn
    rcases hn with rfl | rfl | rfl | rfl <;> rfl
  · have hn : n ∉ [3, 2, 1, 0] := hn
    simp only [List.mem_cons, List.not_mem_nil, or_false, not_or] at hn
    simp [addEnum, hn]

/-- The block of the kernel. -/
def addProg (p q r : String) : List DStmt :=
  let t : DTy := ⟨.stream, .fixed false 8 0⟩
  [.op .input t (.name p) [], .op .input t (.name q) [], .op .add t .none [0, 1], .op .output t (.name r) [], .connect 3 2]

/-- ... with the inputs the other way round. -/
def addProg' (p q r : String) : List DStmt :=
  let t : DTy := ⟨.stream, .fixed false 8 0⟩
  [.op .input t (.name q) [], .op .input t (.name p) [], .op .add t .none [1, 0], .op .output t (.name r) [], .connect 3 2]

theorem add_sort : TopSort.topSort (addEnum false) = .ok [0, 1, 3, 2] := rfl
theorem add_sort' : TopSort.topSort (addEnum true) = .ok [1, 0, 3, 2] := rfl
theorem add_build (F : FloatOps) (p q r : String) : buildBody (addWorld F p q r).view [0, 1, 3, 2] = .ok (addProg p q r) := rfl
theorem add_build' (F : FloatOps) (p q r : String) : buildBody (addWorld F p q r).view [1, 0, 3, 2] = .ok (addProg' p q r) := rfl
theorem add_ports (p q r : String) : modulePorts (addProg p q r) (schedLines (addProg p q r) [] (progOf (addProg p q r))) =
  [⟨p, some (.uint 8), true⟩, ⟨q, some (.uint 8), true⟩, ⟨r, some (.uint 8), false⟩, ⟨"clk", none, true⟩] := rfl
theorem add_ports' (p q r : String) : modulePorts (addProg' p q r) (schedLines (addProg' p q r) [] (progOf (addProg' p q r))) =
  [⟨q, some (.uint 8), true⟩, ⟨p, some (.uint 8), true⟩, ⟨r, some (.uint 8), false⟩, ⟨"clk", none, true⟩] := rfl

theorem add_order (F : FloatOps) (p q r : String) (flip : Bool) : ∃ prog, TopSort.topSort (addEnum flip) = .ok (if flip then [1, 0, 3, 2] else [0, 1, 3, 2]) ∧
    buildBody (addWorld F p q r).view (if flip then [1, 0, 3, 2] else [0, 1, 3, 2]) = .ok prog ∧
    Pass (addWorld F p q r) (addGraph F p q r) none false prog [] (progOf prog) (fun _ => -1) ∧
    modulePorts prog (schedLines prog [] (progOf prog)) =
      (if flip then [⟨q, some (.uint 8), true⟩, ⟨p, some (.uint 8), true⟩] else [⟨p, some (.uint 8), true⟩, ⟨q, some (.uint 8), true⟩]) ++
        [⟨r, some (.uint 8), false⟩, ⟨"clk", none, true⟩] := by
  have hof : ∀ n ∈ (addGraph F p q r).nodes, ((addWorld F p q r).view n).op ≠ .OFFSET := by
    intro n hn
    have hn : n ∈ [3, 2, 1, 0] := hn
    simp only [List.mem_cons, List.not_mem_nil, or_false] at hn
    rcases hn with rfl | rfl | rfl | rfl <;> (intro e; cases e)
  cases flip
  · refine ⟨addProg p q r, add_sort, add_build F p q r, ?_, add_ports p q r⟩
    exact .comb0 (addEnum_ok F p q r false) add_sort (add_build F p q r) hof
  · refine ⟨addProg' p q r, add_sort', add_build' F p q r, ?_, add_ports' p q r⟩
    exact .comb0 (addEnum_ok F p q r true) add_sort' (add_build' F p q r) hof

/-- **C84, what does not hold: the order.**  The order of the ports hangs on the enumeration of a hash set of pointers: one kernel, scheduled in the same
way, can get either. -/
theorem port_order_varies (F : FloatOps) : ∃ w g, Hist F Proper World.init w ∧ Finished w g ∧ ∃ prog prog' X X',
    Pass w g none false prog [] X (fun _ => -1) ∧ Pass w g none false prog' [] X' (fun _ => -1) ∧
    (modulePorts prog (schedLines prog [] X)).map Port.name = ["a", "b", "c", "clk"] ∧
    (modulePorts prog' (schedLines prog' [] X')).map Port.name = ["b", "a", "c", "clk"] := by
  obtain ⟨p1, -, -, h1, e1⟩ := add_order F "a" "b" "c" false
  obtain ⟨p2, -, -, h2, e2⟩ := add_order F "a" "b" "c" true
  exact ⟨_, _, add_hist F "a" "b" "c" 5 (Nat.le_refl _), add_finished F "a" "b" "c", p1, p2, _, _, h1, h2, by rw [e1]; rfl, by rw [e2]; rfl⟩

/-- **C84, what does not hold: distinct names.**  The API, `check()` and the passes accept a kernel with two inputs of one name, and one with an input named
as the clock: the module then has two ports of that name. -/
theorem port_names_clash (F : FloatOps) : ∀ p q r : String, p = q ∨ p = r ∨ q = r ∨ p = "clk" ∨ q = "clk" ∨ r = "clk" →
    ∃ w g, Hist F Proper World.init w ∧ Finished w g ∧ ∃ prog X, Pass w g none false prog [] X (fun _ => -1) ∧
      (modulePorts prog (schedLines prog [] X)).map Port.name = [p, q, r, "clk"] ∧
      ¬ ((modulePorts prog (schedLines prog [] X)).map Port.name).Nodup := by
  intro p q r hpq
  obtain ⟨p1, -, -, h1, e1⟩ := add_order F p q r false
  refine ⟨_, _, add_hist F p q r 5 (Nat.le_refl _), add_finished F p q r, p1, _, h1, by rw [e1]; rfl, ?_⟩
  rw [e1]
  show ¬ [p, q, r, "clk"].Nodup
  simp only [List.nodup_cons, List.mem_cons, List.not_mem_nil, or_false, not_or]
  rintro ⟨⟨a, b, c⟩, ⟨d, e⟩, f, -⟩
  rcases hpq with h | h | h | h | h | h <;> contradiction

/-- Non-vacuity of `ports_of_kernel`, `ports_perm`, `ports_of_circuit` and `ports_distinct`. -/
example (F : FloatOps) : Hist F Proper World.init (addWorld F "a" "b" "c") ∧ Finished (addWorld F "a" "b" "c") (addGraph F "a" "b" "c") ∧
    (∀ n ∈ (addGraph F "a" "b" "c").nodes, ∀ k, ((addWorld F "a" "b" "c").view n).data = .offset k → -(2 ^ 31 : Int) ≤ k ∧ k < 2 ^ 31) ∧
    (∀ n ∈ (addGraph F "a" "b" "c").nodes, ∀ s ∈ ((addWorld F "a" "b" "c").view n).srcs, ((addWorld F "a" "b" "c").view s).op ≠ .OUT) := by
  refine ⟨add_hist F "a" "b" "c" 5 (Nat.le_refl _), add_finished F "a" "b" "c", ?_, ?_⟩
  · intro n hn k hk
    have hn : n ∈ [3, 2, 1, 0] := hn
    simp only [List.mem_cons, List.not_mem_nil, or_false] at hn
    rcases hn with rfl | rfl | rfl | rfl <;> cases hk
  · intro n hn s hs
    have hn : n ∈ [3, 2, 1, 0] := hn
    simp only [List.mem_cons, List.not_mem_nil, or_false] at hn
    rcases hn with rfl | rfl | rfl | rfl
    · have hs : s ∈ [0, 1] := hs
      simp only [List.mem_cons, List.not_mem_nil, or_false] at hs
      rcases hs with rfl | rfl <;> (intro e; cases e)
    · have hs : s ∈ [3] := hs
      rw [List.mem_singleton] at hs
      subst hs
      intro e; cases e
    · cases hs
    · cases hs

end Verif.Sdf
