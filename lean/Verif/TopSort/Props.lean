import Verif.TopSort.Lemmas
namespace Verif.TopSort
variable {α : Type} [DecidableEq α]

/-- **C01.**  For every acyclic graph whose nodes are all reachable from start nodes, and every enumeration
order of start nodes and channels, the returned list is a permutation of the nodes in which every node comes
after all the nodes it reads. -/
theorem topSort_is_topological_order (g : Graph α) (hwf : g.WF) (hac : g.Acyclic)
    (hss : g.StartsAreSources) (hreach : ∀ x ∈ g.nodes, g.Reach x) :
    ∃ order, topSort g = .ok order ∧ order.Perm g.nodes ∧
      ∀ a b, a ∈ g.nodes → g.Edge a b → Before order a b := by
  obtain ⟨s, I, O, hs, he⟩ := loop_spec g hwf (Ord g)
    (fun s n b h I O => ord_body g hac hss s n b h I O)
    (2 * g.nodes.length + 1) (initSt g) (inv_init g hwf) (ord_init g hwf) (by omega)
  have hlen := (final_len g hwf s I hs).2 hreach
  refine ⟨s.res, by simp [topSort, he, hlen], ?_, ?_⟩
  · have hnd : s.res.Nodup := by simpa [hs] using I.nodup
    have hsub : s.res ⊆ g.nodes := fun x hx => reach_mem g hwf ((final_res g s I hs x).1 hx)
    exact (List.subperm_of_subset hnd hsub).perm_of_length_le (by omega)
  · intro a b ha hab
    have : a ∈ s.res := (final_res g s I hs a).2 (hreach a ha)
    exact (O.fin a this b hab).2

/-- **C02.**  On every graph, cyclic or not, the computation terminates; it returns a list exactly when every
node is reachable from a start node (the list is then a permutation of the nodes), and otherwise one of its
assertions fails. -/
theorem topSort_terminates_and_decides_reachability (g : Graph α) (hwf : g.WF) :
    ((∀ x ∈ g.nodes, g.Reach x) → ∃ order, topSort g = .ok order ∧ order.Perm g.nodes) ∧
    ((∃ x ∈ g.nodes, ¬ g.Reach x) → topSort g = .assertFail) := by
  obtain ⟨s, I, -, hs, he⟩ := loop_spec g hwf (fun _ => True) (fun _ _ _ _ _ _ => trivial)
    (2 * g.nodes.length + 1) (initSt g) (inv_init g hwf) trivial (by omega)
  constructor
  · intro hr
    have hlen := (final_len g hwf s I hs).2 hr
    refine ⟨s.res, by simp [topSort, he, hlen], ?_⟩
    have hnd : s.res.Nodup := by simpa [hs] using I.nodup
    have hsub : s.res ⊆ g.nodes := fun x hx => reach_mem g hwf ((final_res g s I hs x).1 hx)
    exact (List.subperm_of_subset hnd hsub).perm_of_length_le (by omega)
  · rintro ⟨x, hx, hnr⟩
    have : ¬ s.res.length = g.nodes.length := fun h => hnr ((final_len g hwf s I hs).1 h x hx)
    simp [topSort, he, this]

/-- Non-vacuity of C01/C02: the diamond `0 → 2, 0 → 3, 1 → 3, 2 → 3, 3 → 4` with a doubled channel. -/
def sample : Graph Nat where
  nodes := [0, 1, 2, 3, 4]
  starts := [0, 1]
  outs := fun n => match n with | 0 => [2, 3] | 1 => [3] | 2 => [3, 3] | 3 => [4] | _ => []

theorem sample_edge_lt {a b : Nat} (h : sample.Edge a b) : a < b := by
  unfold Graph.Edge sample at h
  simp only at h
  split at h <;> simp at h <;> omega

theorem sample_path_lt {a b : Nat} (h : sample.Path a b) : a < b := by
  induction h with
  | single e => exact sample_edge_lt e
  | tail _ e ih => exact Nat.lt_trans ih (sample_edge_lt e)

example : sample.WF ∧ sample.Acyclic ∧ sample.StartsAreSources ∧ ∀ x ∈ sample.nodes, sample.Reach x := by
  refine ⟨⟨by decide, by decide, by decide, by decide⟩, fun a h => absurd (sample_path_lt h) (by omega), ?_, ?_⟩
  · intro a b hab
    unfold Graph.Edge sample at hab
    simp only at hab
    split at hab <;> simp at hab <;> simp [sample] <;> omega
  · have r0 : sample.Reach 0 := .start (by simp [sample])
    have r1 : sample.Reach 1 := .start (by simp [sample])
    have r2 : sample.Reach 2 := .step r0 (by simp [Graph.Edge, sample])
    have r3 : sample.Reach 3 := .step r1 (by simp [Graph.Edge, sample])
    have r4 : sample.Reach 4 := .step r3 (by simp [Graph.Edge, sample])
    intro x hx
    simp only [sample, List.mem_cons, List.not_mem_nil, or_false] at hx
    rcases hx with rfl | rfl | rfl | rfl | rfl <;> assumption

example : (match topSort sample with | .ok l => l | _ => []) = [0, 2, 1, 3, 4] := by decide

/-- The hypothesis `StartsAreSources` of C01 is necessary: if a channel ends in an input node (the API accepts
`connect` on an input variable, io.cpp:19-27 with var.cpp:69-71), the order returned depends on the hash order
of the start nodes and can place a node before the node it reads. -/
theorem topSort_wrong_if_start_has_input :
    ∃ g : Graph Nat, g.WF ∧ g.Acyclic ∧ (∀ x ∈ g.nodes, g.Reach x) ∧
      ∃ order, topSort g = .ok order ∧ ∃ a b, g.Edge a b ∧ ¬ Before order a b := by
  refine ⟨{ nodes := [0, 1], starts := [1, 0], outs := fun n => if n = 0 then [1] else [] },
    ⟨by decide, by decide, by decide, by decide⟩, ?_, ?_, [1, 0], by rfl, 0, 1, by simp [Graph.Edge], ?_⟩
  · have : ∀ {a b : Nat}, Graph.Path (α := Nat)
        { nodes := [0, 1], starts := [1, 0], outs := fun n => if n = 0 then [1] else [] } a b → a = 0 ∧ b = 1 := by
      intro a b h
      induction h with
      | single e => unfold Graph.Edge at e; simp only at e; split at e <;> simp at e <;> omega
      | tail _ e ih => unfold Graph.Edge at e; simp only at e; split at e <;> simp at e <;> omega
    intro a h
    have := this h
    omega
  · intro x hx
    exact .start (by simpa [or_comm] using hx)
  · rintro ⟨l1, l2, l3, h⟩
    rcases l1 with _ | ⟨x, _ | ⟨y, l1⟩⟩
    · simp at h
    · simp at h
    · simp at h

/-- C02, negative side exercised: an isolated node that is not a start node makes the assertion fail. -/
example : (match topSort ({ nodes := [0, 1], starts := [0], outs := fun _ => [] } : Graph Nat) with
    | .assertFail => true | _ => false) = true := by decide

end Verif.TopSort
