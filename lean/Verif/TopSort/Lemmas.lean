import Verif.TopSort.Spec
import Mathlib.Data.List.Perm.Subperm
import Mathlib.Data.List.Nodup
import Mathlib.Tactic.Tauto

set_option linter.unusedSectionVars false
namespace Verif.TopSort
variable {α : Type} [DecidableEq α]

@[simp] theorem upd_same (f : α → Option Nat) (k v) : upd f k v k = some v := by simp [upd]

theorem upd_ne_none (f : α → Option Nat) (k v x) :
    upd f k v x ≠ none ↔ x = k ∨ f x ≠ none := by
  unfold upd; by_cases h : x = k <;> simp [h]

/-- Invariant of the while loop, without any assumption on cycles. -/
structure Inv (g : Graph α) (s : St α) : Prop where
  chk   : ∀ x, s.checked x ≠ none ↔ x ∈ s.stack ∨ x ∈ s.res
  nodup : (s.stack ++ s.res).Nodup
  cnt   : ∀ x c, s.checked x = some c → ∀ y ∈ (g.outs x).take c, s.checked y ≠ none
  done  : ∀ x ∈ s.res, ∀ y ∈ g.outs x, s.checked y ≠ none
  reach : ∀ x, s.checked x ≠ none → g.Reach x
  strt  : ∀ x ∈ g.starts, s.checked x ≠ none

theorem initSt_aux (l : List α) (s : St α) (hn : (l.reverse ++ s.stack).Nodup) :
    let r := l.foldl (fun s n => { s with stack := n :: s.stack, checked := upd s.checked n 0 }) s
    r.stack = l.reverse ++ s.stack ∧ r.res = s.res ∧
      ∀ x, r.checked x = if x ∈ l then some 0 else s.checked x := by
  induction l generalizing s with
  | nil => simp
  | cons a l ih =>
    simp only [List.foldl_cons]
    have := ih { s with stack := a :: s.stack, checked := upd s.checked a 0 } (by simpa using hn)
    obtain ⟨h1, h2, h3⟩ := this
    refine ⟨by rw [h1]; simp, by rw [h2], ?_⟩
    intro x
    rw [h3]
    simp only [upd, List.mem_cons]
    by_cases hx : x ∈ l <;> by_cases hxa : x = a <;> simp [hx, hxa]

theorem initSt_eq (g : Graph α) (h : g.WF) :
    (initSt g).stack = g.starts.reverse ∧ (initSt g).res = [] ∧
      ∀ x, (initSt g).checked x = if x ∈ g.starts then some 0 else none := by
  have := initSt_aux g.starts ({ checked := fun _ => none, stack := [], res := [] } : St α)
    (by simpa using (List.nodup_reverse.2 h.starts_nodup))
  simpa [initSt] using this

theorem inv_init (g : Graph α) (h : g.WF) : Inv g (initSt g) := by
  obtain ⟨h1, h2, h3⟩ := initSt_eq g h
  constructor
  · intro x; rw [h3, h1, h2]; by_cases hx : x ∈ g.starts <;> simp [hx]
  · rw [h1, h2]; simpa using (List.nodup_reverse.2 h.starts_nodup)
  · intro x c hc y hy
    rw [h3] at hc
    by_cases hx : x ∈ g.starts
    · simp [hx] at hc; subst hc; simp at hy
    · simp [hx] at hc
  · rw [h2]; simp
  · intro x hx; rw [h3] at hx
    by_cases hx' : x ∈ g.starts
    · exact .start hx'
    · simp [hx'] at hx
  · intro x hx; rw [h3]; simp [hx]

/-- Effect of the scan, when `node` is already in the table and `rest` is what follows the counter. -/
theorem scan_spec (node : α) (ch : α → Option Nat) (cnt : Nat) (rest : List α)
    (hn : ch node = some cnt) :
    match scan node ch cnt rest with
    | (ch', none) =>
        (∀ y ∈ rest, ch y ≠ none) ∧ ch' node = some (cnt + rest.length) ∧ ∀ x, x ≠ node → ch' x = ch x
    | (ch', some t) =>
        ∃ k, rest[k]? = some t ∧ (∀ y ∈ rest.take k, ch y ≠ none) ∧ ch t = none ∧
          ch' node = some (cnt + k + 1) ∧ ch' t = some 0 ∧
          ∀ x, x ≠ node → x ≠ t → ch' x = ch x := by
  induction rest generalizing ch cnt with
  | nil => simp [scan, hn]
  | cons t rest ih =>
    unfold scan
    by_cases ht : ch t = none
    · simp only [ht, if_true]
      have htn : t ≠ node := by rintro rfl; simp [ht] at hn
      refine ⟨0, by simp, by simp, trivial, by simp, ?_, ?_⟩
      · simp [upd, htn]
      · intro x h1 h2; simp [upd, h1, h2]
    · simp only [ht, if_false]
      have := ih (upd ch node (cnt + 1)) (cnt + 1) (by simp)
      revert this
      rcases scan node (upd ch node (cnt + 1)) (cnt + 1) rest with ⟨ch', o⟩
      cases o with
      | none =>
        rintro ⟨h1, h2, h3⟩
        refine ⟨?_, ?_, ?_⟩
        · intro y hy
          rcases List.mem_cons.1 hy with rfl | hy
          · exact ht
          · have := h1 y hy
            rw [upd_ne_none] at this
            rcases this with rfl | h
            · simp [hn]
            · exact h
        · rw [h2]; simp; omega
        · intro x hx; rw [h3 x hx]; simp [upd, hx]
      | some t' =>
        rintro ⟨k, h1, h2, h3, h4, h5, h6⟩
        have hne : t' ≠ node := by rintro rfl; simp at h3
        refine ⟨k + 1, by simpa using h1, ?_, ?_, ?_, h5, ?_⟩
        · intro y hy
          simp only [List.take_succ_cons, List.mem_cons] at hy
          rcases hy with rfl | hy
          · exact ht
          · have := h2 y hy
            rw [upd_ne_none] at this
            rcases this with rfl | h
            · simp [hn]
            · exact h
        · simpa [upd, hne] using h3
        · rw [h4]; congr 1; omega
        · intro x hx hxt; rw [h6 x hx hxt]; simp [upd, hx]

theorem inv_body (g : Graph α) (s : St α) (node : α) (below : List α)
    (hs : s.stack = node :: below) (I : Inv g s) :
    Inv g (body g s node below) := by
  have hnc : s.checked node ≠ none := (I.chk node).2 (by simp [hs])
  obtain ⟨c, hc⟩ := Option.ne_none_iff_exists'.1 hnc
  have hsc := scan_spec node s.checked c ((g.outs node).drop c) hc
  unfold body
  simp only [hc, Option.getD_some]
  revert hsc
  rcases scan node s.checked c ((g.outs node).drop c) with ⟨ch', o⟩
  have hnd := I.nodup
  cases o with
  | none =>
    rintro ⟨h1, h2, h3⟩
    have hck : ∀ x, ch' x ≠ none ↔ s.checked x ≠ none := by
      intro x
      by_cases hx : x = node
      · subst hx; simp [h2, hc]
      · rw [h3 x hx]
    have hall : ∀ y ∈ g.outs node, s.checked y ≠ none := by
      intro y hy
      rw [← List.take_append_drop c (g.outs node), List.mem_append] at hy
      rcases hy with hy | hy
      · exact I.cnt node c hc y hy
      · exact h1 y hy
    constructor
    · intro x; simp only; rw [hck, I.chk, hs]; simp; tauto
    · simp only; rw [hs] at hnd
      exact (List.perm_middle.nodup_iff).2 (by simpa using hnd)
    · intro x cx hx y hy
      simp only at hx ⊢
      rw [hck]
      by_cases hxn : x = node
      · subst hxn; exact hall y (List.mem_of_mem_take hy)
      · rw [h3 x hxn] at hx; exact I.cnt x cx hx y hy
    · intro x hx y hy
      simp only at hx ⊢
      rw [hck]
      rcases List.mem_cons.1 hx with rfl | hx
      · exact hall y hy
      · exact I.done x hx y hy
    · intro x hx; exact I.reach x ((hck x).1 hx)
    · intro x hx; exact (hck x).2 (I.strt x hx)
  | some t =>
    rintro ⟨k, h1, h2, h3, h4, h5, h6⟩
    have htn : t ≠ node := by rintro rfl; simp [h3] at hc
    have hck : ∀ x, ch' x ≠ none ↔ x = t ∨ s.checked x ≠ none := by
      intro x
      by_cases hxt : x = t
      · subst hxt; simp [h5]
      · by_cases hx : x = node
        · subst hx; simp [h4, hc]
        · rw [h6 x hx hxt]; simp [hxt]
    have htm : t ∈ g.outs node := by
      have := List.mem_of_getElem? h1
      exact List.mem_of_mem_drop this
    have htnot : t ∉ s.stack ∧ t ∉ s.res := by
      have := mt (I.chk t).2 (by simpa using h3)
      tauto
    constructor
    · intro x; simp only; rw [hck, I.chk, hs]; simp
      tauto
    · simp only
      rw [← hs]
      simp only [List.cons_append, List.nodup_cons, List.mem_append, not_or]
      exact ⟨htnot, hnd⟩
    · intro x cx hx y hy
      simp only at hx ⊢
      rw [hck]
      by_cases hxn : x = node
      · subst hxn
        rw [h4] at hx
        have : cx = c + k + 1 := by simpa using hx.symm
        subst this
        -- first c, then k more, then t
        have hsplit : (g.outs x).take (c + k + 1) =
            (g.outs x).take c ++ (((g.outs x).drop c).take k ++ [t]) := by
          rw [Nat.add_assoc, List.take_add]
          congr 1
          rw [List.take_add_one, h1]; simp
        rw [hsplit] at hy
        simp only [List.mem_append, List.mem_singleton] at hy
        rcases hy with hy | hy | hy
        · exact .inr (I.cnt x c hc y hy)
        · exact .inr (h2 y hy)
        · exact .inl hy
      · by_cases hxt : x = t
        · subst hxt; rw [h5] at hx
          have : cx = 0 := by simpa using hx.symm
          subst this; simp at hy
        · rw [h6 x hxn hxt] at hx
          exact .inr (I.cnt x cx hx y hy)
    · intro x hx y hy
      simp only at hx ⊢
      rw [hck]; exact .inr (I.done x hx y hy)
    · intro x hx
      rcases (hck x).1 hx with rfl | hx
      · exact .step (I.reach node hnc) htm
      · exact I.reach x hx
    · intro x hx; exact (hck x).2 (.inr (I.strt x hx))

/-- All reachable nodes are nodes of the graph. -/
theorem reach_mem (g : Graph α) (h : g.WF) {x} (hx : g.Reach x) : x ∈ g.nodes := by
  induction hx with
  | start hs => exact h.starts_sub _ hs
  | step _ he ih => exact h.outs_sub _ ih _ he

theorem len_le (g : Graph α) (h : g.WF) (s : St α) (I : Inv g s) :
    s.stack.length + s.res.length ≤ g.nodes.length := by
  have hsub : (s.stack ++ s.res) ⊆ g.nodes := by
    intro x hx
    exact reach_mem g h (I.reach x ((I.chk x).2 (by simpa using hx)))
  have := (List.subperm_of_subset I.nodup hsub).length_le
  simpa using this

/-- Every iteration either finishes a node or starts a new one. -/
theorem body_measure (g : Graph α) (s : St α) (node : α) (below : List α)
    (hs : s.stack = node :: below) :
    (body g s node below).stack.length + 2 * (body g s node below).res.length
      = s.stack.length + 2 * s.res.length + 1 := by
  unfold body
  simp only
  rcases scan node s.checked ((s.checked node).getD 0) ((g.outs node).drop ((s.checked node).getD 0))
    with ⟨ch', o⟩
  cases o <;> simp [hs] <;> omega

/-- With a final state the loop is decided by completeness of `res`. -/
theorem loop_spec (g : Graph α) (h : g.WF) (P : St α → Prop)
    (hP : ∀ s node below, s.stack = node :: below → Inv g s → P s → P (body g s node below))
    (fuel : Nat) (s : St α) (I : Inv g s) (hp : P s)
    (hf : 2 * g.nodes.length + 1 ≤ fuel + (s.stack.length + 2 * s.res.length)) :
    ∃ s', Inv g s' ∧ P s' ∧ s'.stack = [] ∧
      loop g fuel s = if s'.res.length = g.nodes.length then .ok s'.res else .assertFail := by
  induction fuel generalizing s with
  | zero =>
    have := len_le g h s I
    have hh : s.stack.length + 2 * s.res.length ≤ 2 * g.nodes.length := by omega
    omega
  | succ fuel ih =>
    have hlen := len_le g h s I
    unfold loop
    rcases hst : s.stack with _ | ⟨node, below⟩
    · refine ⟨s, I, hp, hst, ?_⟩
      simp only
      rw [hst] at hlen; simp at hlen
      by_cases hq : s.res.length = g.nodes.length
      · simp [hq]
      · have : g.nodes.length - s.res.length ≠ 0 := by omega
        simp [hq, this]
    · simp only
      rw [hst] at hlen; simp at hlen
      have hpos : g.nodes.length - s.res.length > 0 := by omega
      simp only [hpos, if_true]
      have hm := body_measure g s node below hst
      exact ih (body g s node below) (inv_body g s node below hst I) (hP s node below hst I hp) (by omega)

/-- A finished state contains exactly the reachable nodes. -/
theorem final_res (g : Graph α) (s : St α) (I : Inv g s) (hs : s.stack = []) (x : α) :
    x ∈ s.res ↔ g.Reach x := by
  constructor
  · intro hx; exact I.reach x ((I.chk x).2 (.inr hx))
  · intro hx
    induction hx with
    | start h =>
      have := (I.chk _).1 (I.strt _ h); simpa [hs] using this
    | step _ he ih =>
      have := (I.chk _).1 (I.done _ ih _ he); simpa [hs] using this

theorem final_len (g : Graph α) (h : g.WF) (s : St α) (I : Inv g s) (hs : s.stack = []) :
    s.res.length = g.nodes.length ↔ ∀ x ∈ g.nodes, g.Reach x := by
  have hnd : s.res.Nodup := by simpa [hs] using I.nodup
  have hsub : s.res ⊆ g.nodes := fun x hx => reach_mem g h ((final_res g s I hs x).1 hx)
  constructor
  · intro hl x hx
    have hp : s.res.Perm g.nodes := (List.subperm_of_subset hnd hsub).perm_of_length_le (by omega)
    exact (final_res g s I hs x).1 (hp.mem_iff.2 hx)
  · intro hr
    have hsub2 : g.nodes ⊆ s.res := fun x hx => (final_res g s I hs x).2 (hr x hx)
    have h1 := (List.subperm_of_subset hnd hsub).length_le
    have h2 := (List.subperm_of_subset h.nodes_nodup hsub2).length_le
    omega

/-! ### Acyclic graphs: order -/

theorem path_trans (g : Graph α) {a b c} (h1 : g.Path a b) (h2 : g.Path b c) : g.Path a c := by
  induction h2 with
  | single e => exact .tail h1 e
  | tail _ e ih => exact .tail ih e

/-- Extra invariant for acyclic graphs. -/
structure Ord (g : Graph α) (s : St α) : Prop where
  stk : s.stack.Pairwise (fun a b => b ∈ g.starts ∨ g.Path b a)
  fin : ∀ x ∈ s.res, ∀ y ∈ g.outs x, y ∈ s.res ∧ Before s.res x y

omit [DecidableEq α] in
theorem before_cons {l : List α} {a b x : α} (h : Before l a b) : Before (x :: l) a b := by
  obtain ⟨l1, l2, l3, rfl⟩ := h
  exact ⟨x :: l1, l2, l3, by simp⟩

omit [DecidableEq α] in
theorem before_head {l : List α} {a b : α} (h : b ∈ l) : Before (a :: l) a b := by
  obtain ⟨l2, l3, rfl⟩ := List.append_of_mem h
  exact ⟨[], l2, l3, by simp⟩

theorem ord_body (g : Graph α) (hac : g.Acyclic) (hss : g.StartsAreSources)
    (s : St α) (node : α) (below : List α)
    (hs : s.stack = node :: below) (I : Inv g s) (O : Ord g s) :
    Ord g (body g s node below) := by
  have hI' := inv_body g s node below hs I
  have hnc : s.checked node ≠ none := (I.chk node).2 (by simp [hs])
  obtain ⟨c, hc⟩ := Option.ne_none_iff_exists'.1 hnc
  have hsc := scan_spec node s.checked c ((g.outs node).drop c) hc
  have hstk := O.stk
  rw [hs] at hstk
  unfold body at hI' ⊢
  simp only [hc, Option.getD_some] at hI' ⊢
  revert hsc hI'
  rcases scan node s.checked c ((g.outs node).drop c) with ⟨ch', o⟩
  cases o with
  | none =>
    intro _ hI'
    have hall : ∀ y ∈ g.outs node, y ∈ s.res := by
      intro y hy
      have hy1 := hI'.done node (by simp) y hy
      have hy2 := (hI'.chk y).1 hy1
      simp only [List.mem_cons] at hy2
      have hyn : y ≠ node := by
        rintro rfl; exact hac y (.single hy)
      rcases hy2 with hb | rfl | hr
      · exfalso
        have := (List.pairwise_cons.1 hstk).1 y hb
        rcases this with hst | hp
        · exact hss node y hy hst
        · exact hac node (path_trans g (.single hy) hp)
      · exact absurd rfl hyn
      · exact hr
    refine ⟨(List.pairwise_cons.1 hstk).2, ?_⟩
    intro x hx y hy
    simp only at hx ⊢
    rcases List.mem_cons.1 hx with rfl | hx
    · exact ⟨List.mem_cons_of_mem _ (hall y hy), before_head (hall y hy)⟩
    · have := O.fin x hx y hy
      exact ⟨List.mem_cons_of_mem _ this.1, before_cons this.2⟩
  | some t =>
    rintro ⟨k, h1, -⟩ hI'
    have htm : t ∈ g.outs node := List.mem_of_mem_drop (List.mem_of_getElem? h1)
    refine ⟨?_, O.fin⟩
    simp only
    refine List.pairwise_cons.2 ⟨?_, hstk⟩
    intro b hb
    rcases List.mem_cons.1 hb with rfl | hb
    · exact .inr (.single htm)
    · rcases (List.pairwise_cons.1 hstk).1 b hb with h | h
      · exact .inl h
      · exact .inr (.tail h htm)

theorem ord_init (g : Graph α) (h : g.WF) : Ord g (initSt g) := by
  obtain ⟨h1, h2, -⟩ := initSt_eq g h
  constructor
  · rw [h1]
    rw [List.pairwise_iff_forall_sublist]
    intro a b hab
    have : b ∈ g.starts.reverse := hab.subset (by simp)
    exact .inl (by simpa using this)
  · rw [h2]; simp

end Verif.TopSort
