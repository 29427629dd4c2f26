import Verif.Dfcxx.WorldInline
/-
Concrete histories: the hypotheses of the theorems about the API can be met, and what happens outside of them.
-/
namespace Verif.Dfcxx

def u8t : DFType := .fixed false 8 0

/-- A caller with an input, a shallow variable and an instance `r = a + a`, and an output connected to the instance's result. -/
def exCmds : List Cmd :=
  [.input false "x" u8t, .newVar false u8t, .beginInst, .input false "a" u8t, .output false "r" u8t, .bin .ADD 2 2, .connect 3 4,
   .endInst [(0, "a"), (1, "r")], .output false "y" u8t, .connect 5 4]

/-- The state after a list of calls that succeed. -/
def after (F : FloatOps) (cmds : List Cmd) : World :=
  match World.init.run F cmds with
  | .ok w => w
  | .error _ => World.init

theorem dep_cases {w : World} {a b : Nat} (h : w.Dep a b) : a = b ∨ ∃ c ∈ (w.node b).ins, w.Dep a (w.chan c).src := by
  cases h with
  | refl => exact Or.inl rfl
  | step h e =>
    obtain ⟨-, c, hc, rfl⟩ := e
    exact Or.inr ⟨c, hc, h⟩

theorem exec_after (F : FloatOps) (n : Nat) (h : n < exCmds.length := by decide) :
    ∃ rs, (after F (exCmds.take n)).exec F (exCmds[n]'h) = .ok (after F (exCmds.take (n + 1)), rs) := by
  have : n < 10 := h
  match n, h with
  | 0, _ | 1, _ | 2, _ | 3, _ | 4, _ | 5, _ | 6, _ | 7, _ | 8, _ | 9, _ => exact ⟨_, rfl⟩

theorem proper_simple {w : World} {c : Cmd} (h : c.simple = true ∨ c = .beginInst) : Proper w c := by
  cases c <;> first
    | exact ⟨⟨trivial, trivial, trivial⟩, trivial⟩
    | (exfalso; simp [Cmd.simple] at h)

theorem ex_proper (F : FloatOps) (n : Nat) (h : n < exCmds.length) : Proper (after F (exCmds.take n)) (exCmds[n]'h) := by
  have : n < 10 := h
  match n, h with
  | 0, _ | 1, _ | 3, _ | 4, _ | 5, _ | 8, _ => exact proper_simple (Or.inl rfl)
  | 2, _ => exact proper_simple (Or.inr rfl)
  | 6, _ =>
    refine ⟨⟨trivial, ⟨(fun e => by cases e), fun d => ?_⟩, Or.inl rfl⟩, trivial⟩
    rcases dep_cases d with e | ⟨c, hc, d⟩
    · cases e
    have hc : c ∈ [0, 1] := hc
    have d : (after F (exCmds.take 6)).Dep 3 2 := by
      simp only [List.mem_cons, List.not_mem_nil, or_false] at hc
      rcases hc with rfl | rfl <;> exact d
    rcases dep_cases d with e | ⟨c, hc, d⟩
    · cases e
    · cases hc
  | 9, _ =>
    refine ⟨⟨trivial, ⟨(fun e => by cases e), fun d => ?_⟩, Or.inl rfl⟩, trivial⟩
    rcases dep_cases d with e | ⟨c, hc, d⟩
    · cases e
    have hc : c ∈ [0, 1] := hc
    have d : (after F (exCmds.take 9)).Dep 5 0 := by
      simp only [List.mem_cons, List.not_mem_nil, or_false] at hc
      rcases hc with rfl | rfl <;> exact d
    rcases dep_cases d with e | ⟨c, hc, d⟩
    · cases e
    · cases hc
  | 7, _ =>
    have hB : ∀ s n, (after F (exCmds.take 7)).Bound s n → (s = "a" → n = 2) ∧ (s = "r" → n = 3) := by
      rintro s n ⟨S, rest, e, hl⟩
      have e : (⟨1, [4, 3, 2], [2], [("r", 3), ("a", 2)]⟩ : KGraph) :: _ = S :: rest := e
      injection e with e1 e2
      subst e1
      constructor
      · rintro rfl; injection hl with hl; exact hl.symm
      · rintro rfl; injection hl with hl; exact hl.symm
    refine ⟨⟨?_, ?_, trivial⟩, ?_⟩
    · intro b hb n hn
      simp only [List.mem_cons, List.not_mem_nil, or_false] at hb
      rcases hb with rfl | rfl
      · rw [(hB _ n hn).1 rfl]; exact ⟨fun _ => rfl, fun h => absurd rfl h⟩
      · rw [(hB _ n hn).2 rfl]; exact ⟨fun h => (by cases h), fun _ => rfl⟩
    · intro b hb b' hb' n n' hn hn' hI hO d
      simp only [List.mem_cons, List.not_mem_nil, or_false] at hb hb'
      rcases hb with rfl | rfl
      · rcases hb' with rfl | rfl
        · rw [(hB _ n' hn').1 rfl] at hO; exact hO rfl
        · rcases dep_cases d with e | ⟨c, hc, d⟩
          · cases e
          · cases hc
      · rw [(hB _ n hn).2 rfl] at hI; cases hI
    · intro S rest e n hn hop
      have e : (⟨1, [4, 3, 2], [2], [("r", 3), ("a", 2)]⟩ : KGraph) :: _ = S :: rest := e
      injection e with e1 e2
      subst e1
      simp only [List.mem_cons, List.not_mem_nil, or_false] at hn
      rcases hn with rfl | rfl | rfl
      · cases hop
      · cases hop
      · exact ⟨(0, "a"), by simp, _, _, rfl, rfl⟩

theorem ex_hist (F : FloatOps) : ∀ n, n ≤ 10 → Hist F Proper World.init (after F (exCmds.take n))
  | 0, _ => .nil _
  | n + 1, h => by
    have hn : n < exCmds.length := h
    obtain ⟨rs, he⟩ := exec_after F n hn
    exact .snoc _ (ex_hist F n (by omega)) (ex_proper F n hn) he

def exGraph : KGraph := ⟨0, [5, 0, 4], [0], [("y", 5), ("x", 0)]⟩

/-- Non-vacuity of `finished_kernel_is_processable`, `api_kernel_translates`, `api_kernel_simulates`, `check_fails_iff`,
`api_graph_consistent`, `api_graph_acyclic`: a finished kernel with an instance. -/
theorem ex_finished (F : FloatOps) : Hist F Proper World.init (after F exCmds) ∧ Finished (after F exCmds) exGraph ∧
    Enumeration (after F exCmds) exGraph ((after F exCmds).sortGraph exGraph) := by
  refine ⟨ex_hist F 10 (Nat.le_refl _), ⟨rfl, rfl, ?_, ?_⟩, ⟨List.Perm.refl _, List.Perm.refl _, ?_, ?_⟩⟩
  · intro n hn hop
    have hn : n ∈ [5, 0, 4] := hn
    simp only [List.mem_cons, List.not_mem_nil, or_false] at hn
    rcases hn with rfl | rfl | rfl
    · rfl
    · cases hop
    · cases hop
  · intro n hn hop
    have hn : n ∈ [5, 0, 4] := hn
    simp only [List.mem_cons, List.not_mem_nil, or_false] at hn
    rcases hn with rfl | rfl | rfl <;> cases hop
  · intro n hn; exact if_pos hn
  · intro n hn; exact if_neg hn

/-- Non-vacuity of `instance_is_inlined`: the instance of the example. -/
example (F : FloatOps) : ∃ w' rs, Hist F Clean World.init (after F (exCmds.take 7)) ∧
    Clean (after F (exCmds.take 7)) (.endInst [(0, "a"), (1, "r")]) ∧ Forward (after F (exCmds.take 7)) (.endInst [(0, "a"), (1, "r")]) ∧
    (after F (exCmds.take 7)).exec F (.endInst [(0, "a"), (1, "r")]) = .ok (w', rs) ∧ rs = [0, 4] := by
  have p := ex_proper F 7 (by decide)
  exact ⟨_, _, (ex_hist F 7 (by decide)).mono fun _ _ h => h.1.clean, p.1.clean, p.1.forward, rfl, rfl⟩

/-- The same instance without a binding for its input: the finished kernel cannot be sorted (`unbound_input_aborts`), for
every enumeration. -/
theorem ex_unbound (F : FloatOps) : ∃ w1 rs, (after F (exCmds.take 7)).exec F (.endInst [(1, "r")]) = .ok (w1, rs) ∧
    ∃ g, w1.stack = [g] ∧ ∀ G, Enumeration w1 g G → TopSort.topSort G = .assertFail := by
  refine ⟨_, _, rfl, _, rfl, fun G hG => ?_⟩
  have p := ex_proper F 7 (by decide)
  refine unbound_input_aborts (F := F) (n := 2) (bs := [(1, "r")]) ((ex_hist F 7 (by decide)).mono fun _ _ h => ⟨h.1.clean, h.1.sane⟩)
    rfl (by decide) rfl ?_ ?_ rfl (.nil _) rfl hG
  · intro b hb hB
    simp only [List.mem_singleton] at hb
    subst hb
    obtain ⟨S, rest, e, hl⟩ := hB
    have e : (⟨1, [4, 3, 2], [2], [("r", 3), ("a", 2)]⟩ : KGraph) :: _ = S :: rest := e
    injection e with e1 e2
    subst e1
    cases hl
  · intro b hb n hn
    exact p.1.clean b (by simp only [List.mem_singleton] at hb; simp [hb]) n hn

/-! ### Outside of the discipline -/

/-- An instance that reads its own output (here `r2 = r`, both bound) is accepted, and leaves a channel whose source is no node
of the program: the bound output was deleted with its reader still attached. -/
theorem read_instance_output_dangles (F : FloatOps) : ∃ w, World.init.run F
    [.input false "x" u8t, .newVar false u8t, .output false "y" u8t, .beginInst, .input false "a" u8t, .output false "r" u8t,
     .output false "s" u8t, .connect 4 3, .connect 5 4, .endInst [(0, "a"), (1, "r"), (2, "s")]] = .ok w ∧
    w.Live 2 ∧ (w.node 2).ins.map (fun c => (w.chan c).src) = [4] ∧ ¬ w.Live 4 ∧ ¬ Consistent w := by
  refine ⟨_, rfl, ?_⟩
  have h4 : ∀ w : World, w.stack = [⟨0, [2, 0], [0], [("y", 2), ("x", 0)]⟩] → ¬ w.Live 4 := by
    rintro w e ⟨g, hg, hn⟩
    rw [e, List.mem_singleton] at hg
    subst hg
    simp at hn
  refine ⟨⟨_, List.mem_singleton.mpr rfl, by decide⟩, rfl, h4 _ rfl, fun hc => h4 _ rfl
    (hc.ins 2 ⟨_, List.mem_singleton.mpr rfl, by decide⟩ 1 (by decide)).2.1⟩

/-- If an output of an instance is connected directly to one of its inputs and is bound before that input, the handle the caller
gets is a deleted node; connecting it to anything then fails the assertion. -/
theorem passthrough_handle_dead (F : FloatOps) : ∃ w rs,
    (after F [.input false "x" u8t, .newVar false u8t, .beginInst, .input false "a" u8t, .output false "r" u8t, .connect 3 2]).exec F
      (.endInst [(1, "r"), (0, "a")]) = .ok (w, rs) ∧ rs = [2, 0] ∧ ¬ w.Live 2 ∧
    ∀ w1 rs1, w.exec F (.output false "y" u8t) = .ok (w1, rs1) → w1.exec F (.connect 4 2) = .error .assertFail := by
  refine ⟨_, _, rfl, rfl, ?_, ?_⟩
  · rintro ⟨g, hg, hn⟩
    have hg : g ∈ [(⟨0, [0], [0], [("x", 0)]⟩ : KGraph)] := hg
    simp only [List.mem_singleton] at hg
    subst hg
    simp at hn
  · intro w1 rs1 h
    injection h with h
    injection h with h1 h2
    subst h1
    rfl

/-- A constant of the enclosing program cannot be bound to an input of an instance inside a kernel that is not the top one: the
constant is not in the caller's graph, and a null pointer is dereferenced. -/
theorem constant_bound_in_nested_kernel (F : FloatOps) :
    World.init.run F [.beginInst, .const u8t 7, .beginInst, .input false "a" u8t, .un .NOT 1, .endInst [(0, "a")]] = .error .ub := rfl

end Verif.Dfcxx
