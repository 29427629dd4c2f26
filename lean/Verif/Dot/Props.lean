import Verif.Dot.Model
import Verif.Dfcxx.WorldFinal
import Std.Data.String.ToNat
/-
C65: the DOT output draws exactly the kernel.
-/
namespace Verif.Dot
open Verif.Dfcxx

/-! ### Specification -/

/-- How a node is to be drawn: inputs and outputs as triangles with their names, offsets as diamonds with the distance, multiplexers as
trapezia, operators as boxes with the symbol of the operator (for shifts with the distance), everything else as a box with
its identifier. -/
inductive Drawn (name : String) : OpType → NodeData → String → String → Prop
  | offset (o : Int) : Drawn name .OFFSET (.offset o) "diamond" (toString o)
  | input (d : NodeData) : Drawn name .IN d "invtriangle" name
  | output (d : NodeData) : Drawn name .OUT d "triangle" name
  | mux (d : NodeData) : Drawn name .MUX d "invtrapezium" name
  | shl (k : Nat) : Drawn name .SHL (.bitShift k) "box" ("<< " ++ toString k)
  | shr (k : Nat) : Drawn name .SHR (.bitShift k) "box" (">> " ++ toString k)
  | operator (op : OpType) (sym : String) (d : NodeData)
      (h : (op, sym) ∈ [(OpType.ADD, "+"), (.SUB, "-"), (.MUL, "*"), (.DIV, "/"), (.AND, "&"), (.OR, "|"), (.XOR, "^"),
        (.NOT, "!"), (.NEG, "-"), (.LESS, "<"), (.LESSEQ, "<="), (.GREATER, ">"), (.GREATEREQ, ">="), (.EQ, "=="), (.NEQ, "!=")]) :
      Drawn name op d "box" sym
  | other (op : OpType) (d : NodeData) (h : op = .CONST ∨ op = .CAST ∨ op = .BITS ∨ op = .CAT) : Drawn name op d "box" name

/-- The arrows into a node: one per operand, in order, numbered from 0. -/
def arrows (w : World) (ν : Nat → String) (n : Nat) : List Stmt :=
  (w.view n).srcs.mapIdx fun i s => .conn (ν s) (ν n) (toString i)

/-- The body of a DOT file shows the nodes `nodes` under the identifiers `ν`: for each of them, in order, one element drawn as
specified, followed by its arrows; nothing else. -/
inductive Shows (w : World) (ν : Nat → String) : List Nat → List Stmt → Prop
  | nil : Shows w ν [] []
  | cons {n : Nat} {ns : List Nat} {shape label : String} {rest : List Stmt} :
      Drawn (ν n) (w.node n).op (w.node n).data shape label → Shows w ν ns rest →
      Shows w ν (n :: ns) (.elem (ν n) shape label :: (arrows w ν n ++ rest))

/-- An identifier the tool may invent: `node` followed by a decimal number. -/
def Invented (s : String) : Prop := ∃ k : Nat, s = "node" ++ toString k

/-! ### Naming -/

/-- What holds of the captured variables at any time: the mapping has one entry per number below the counter. -/
structure NInv (w : World) (s : Names) : Prop where
  small : ∀ n x, s.map.lookup n = some x → ∃ k, k < s.counter ∧ x = "node" ++ Nat.repr k
  inj : ∀ n m x, s.map.lookup n = some x → s.map.lookup m = some x → n = m

/-- The later mapping extends the earlier one. -/
def Names.le (s t : Names) : Prop := ∀ n x, s.map.lookup n = some x → t.map.lookup n = some x

theorem append_left_inj {a b c : String} (h : a ++ b = a ++ c) : b = c := by
  have := congrArg String.toList h
  simp only [String.toList_append, List.append_cancel_left_eq] at this
  exact String.toList_injective this

theorem invented_inj {a b : Nat} (h : "node" ++ Nat.repr a = "node" ++ Nat.repr b) : a = b :=
  Nat.repr_injective (append_left_inj h)

/-- The identifier of a node under a mapping. -/
def nameIn (w : World) (s : Names) (n : Nat) : Option String :=
  if (w.node n).name ≠ "" then some (w.node n).name else s.map.lookup n

theorem nameIn_le {w : World} {s t : Names} (h : s.le t) {n : Nat} {x : String} (e : nameIn w s n = some x) : nameIn w t n = some x := by
  unfold nameIn at e ⊢
  split
  · rename_i hn; rw [if_pos hn] at e; exact e
  · rename_i hn; rw [if_neg hn] at e; exact h n x e

theorem getName_spec {w : World} {s : Names} (hi : NInv w s) (n : Nat) :
    NInv w (getName w s n).1 ∧ s.le (getName w s n).1 ∧ nameIn w (getName w s n).1 n = some (getName w s n).2 := by
  unfold getName nameIn
  by_cases hn : (w.node n).name ≠ ""
  · simp only [if_pos hn]
    exact ⟨hi, fun _ _ h => h, trivial⟩
  · simp only [if_neg hn]
    cases hl : s.map.lookup n with
    | some x => exact ⟨hi, fun _ _ h => h, hl⟩
    | none =>
      dsimp only
      refine ⟨⟨?_, ?_⟩, ?_, ?_⟩
      · intro m x hm
        simp only [List.lookup_cons] at hm
        split at hm
        · cases hm; exact ⟨s.counter, Nat.lt_succ_self _, rfl⟩
        · obtain ⟨k, hk, e⟩ := hi.small m x hm
          exact ⟨k, Nat.lt_succ_of_lt hk, e⟩
      · have fresh : ∀ m, s.map.lookup m = some ("node" ++ Nat.repr s.counter) → False := by
          intro m hm
          obtain ⟨k, hk, e⟩ := hi.small m _ hm
          have := invented_inj e
          omega
        intro a b x ha hb
        simp only [List.lookup_cons] at ha hb
        split at ha
        · rename_i ea
          cases ha
          split at hb
          · rename_i eb
            simp only [beq_iff_eq] at ea eb
            exact ea.trans eb.symm
          · exact (fresh b hb).elim
        · split at hb
          · cases hb; exact (fresh a ha).elim
          · exact hi.inj a b x ha hb
      · intro m x hm
        simp only [List.lookup_cons]
        split
        · rename_i e
          simp only [beq_iff_eq] at e
          subst e
          rw [hl] at hm; cases hm
        · exact hm
      · simp [List.lookup_cons]

theorem connections_spec {w : World} (name : String) : ∀ (cs : List Nat) (s : Names) (i : Nat), NInv w s →
    NInv w (connections w name s i cs).1 ∧ s.le (connections w name s i cs).1 ∧
    ∀ ν : Nat → String, (∀ n x, nameIn w (connections w name s i cs).1 n = some x → ν n = x) →
      (connections w name s i cs).2 = (cs.map fun c => (w.chan c).src).mapIdx fun j a => .conn (ν a) name (toString (i + j)) := by
  intro cs
  induction cs with
  | nil => intro s i hi; exact ⟨hi, fun _ _ h => h, fun _ _ => rfl⟩
  | cons c cs ih =>
    intro s i hi
    obtain ⟨h1, h2, h3⟩ := getName_spec hi (w.chan c).src
    obtain ⟨h4, h5, h6⟩ := ih (getName w s (w.chan c).src).1 (i + 1) h1
    refine ⟨h4, fun n x h => h5 n x (h2 n x h), fun ν hν => ?_⟩
    have e1 : ν (w.chan c).src = (getName w s (w.chan c).src).2 := hν _ _ (nameIn_le h5 h3)
    have e2 := h6 ν hν
    unfold connections
    simp only [List.map_cons, List.mapIdx_cons, Nat.add_zero]
    rw [e1]
    refine congrArg₂ _ rfl (e2.trans ?_)
    congr 1
    funext j a
    rw [Nat.add_right_comm, Nat.add_assoc]

/-- The kinds of data a node of each kind carries. -/
def DataOK (r : NodeRec) : Prop :=
  r.op ≠ .NONE ∧ (r.op = .OFFSET → ∃ o, r.data = .offset o) ∧ (r.op = .SHL ∨ r.op = .SHR → ∃ k, r.data = .bitShift k)

theorem shapeLabel_drawn {r : NodeRec} (h : DataOK r) (name : String) :
    Drawn name r.op r.data (shapeLabel r.op r.data name).1 (shapeLabel r.op r.data name).2 := by
  obtain ⟨h0, h1, h2⟩ := h
  cases ho : r.op
  case NONE => exact (h0 ho).elim
  case OFFSET => obtain ⟨o, e⟩ := h1 ho; rw [e]; exact .offset o
  case IN => exact .input _
  case OUT => exact .output _
  case MUX => exact .mux _
  case SHL => obtain ⟨k, e⟩ := h2 (.inl ho); rw [e]; exact .shl k
  case SHR => obtain ⟨k, e⟩ := h2 (.inr ho); rw [e]; exact .shr k
  case CONST => exact .other _ _ (by simp)
  case CAST => exact .other _ _ (by simp)
  case BITS => exact .other _ _ (by simp)
  case CAT => exact .other _ _ (by simp)
  all_goals exact .operator _ _ _ (by simp [shapeLabel])

theorem view_srcs (w : World) (n : Nat) : (w.view n).srcs = (w.node n).ins.map fun c => (w.chan c).src := by
  unfold NodeV.srcs World.view
  simp [Function.comp_def]

theorem elements_spec {w : World} : ∀ (ns : List Nat) (s : Names), NInv w s → (∀ n ∈ ns, DataOK (w.node n)) →
    NInv w (elements w s ns).1 ∧ s.le (elements w s ns).1 ∧ (∀ n ∈ ns, ∃ x, nameIn w (elements w s ns).1 n = some x) ∧
    ∀ ν : Nat → String, (∀ n x, nameIn w (elements w s ns).1 n = some x → ν n = x) → Shows w ν ns (elements w s ns).2 := by
  intro ns
  induction ns with
  | nil => intro s hi _; exact ⟨hi, fun _ _ h => h, by simp, fun _ _ => .nil⟩
  | cons n ns ih =>
    intro s hi hd
    obtain ⟨h1, h2, h3⟩ := getName_spec hi n
    obtain ⟨h4, h5, h6⟩ := connections_spec (getName w s n).2 (w.node n).ins (getName w s n).1 0 h1
    obtain ⟨h7, h8, h9, h10⟩ := ih (connections w (getName w s n).2 (getName w s n).1 0 (w.node n).ins).1 h4
      fun m hm => hd m (List.mem_cons_of_mem _ hm)
    have hn := nameIn_le h8 (nameIn_le h5 h3)
    refine ⟨h7, fun m x h => h8 m x (h5 m x (h2 m x h)), ?_, fun ν hν => ?_⟩
    · intro m hm
      rcases List.mem_cons.mp hm with rfl | hm
      · exact ⟨_, hn⟩
      · exact h9 m hm
    · have e1 : ν n = (getName w s n).2 := hν _ _ hn
      have e2 := h6 ν fun m x hm => hν m x (nameIn_le h8 hm)
      have e3 : arrows w ν n = (connections w (getName w s n).2 (getName w s n).1 0 (w.node n).ins).2 := by
        rw [e2]
        unfold arrows
        rw [view_srcs, e1]
        congr 1
        funext j a
        rw [Nat.zero_add]
      have e4 : (elements w s (n :: ns)).2 = .elem (ν n) (shapeLabel (w.node n).op (w.node n).data (ν n)).1
          (shapeLabel (w.node n).op (w.node n).data (ν n)).2 :: (arrows w ν n ++
          (elements w (connections w (getName w s n).2 (getName w s n).1 0 (w.node n).ins).1 ns).2) := by
        rw [e3, e1]; rfl
      rw [e4]
      exact .cons (shapeLabel_drawn (hd n (List.mem_cons_self ..)) _) (h10 ν hν)

/-! ### C65 -/

/-- **C65.**  For every kernel built through the API with nothing left open and accepted by the check, and every enumeration of its
nodes, the DOT file shows exactly the kernel: there are identifiers `ν` under which the body is one element per node, drawn as
specified, and one arrow per operand, numbered, from an element that is itself shown.  Ports keep their names; the other nodes get
invented identifiers, no two the same.  If the ports are named differently and none of them has an invented name, no two nodes share an
identifier. -/
theorem dot_draws_the_kernel {F : FloatOps} {w : World} {g : KGraph} (h : Hist F WellUsed World.init w) (only : w.stack = [g])
    (check : w.check g = true) {nodes : List Nat} (hp : nodes.Perm g.nodes) :
    ∃ ν : Nat → String,
      Shows w ν nodes (dotStmts w nodes) ∧
      (∀ n ∈ g.nodes, ∀ s ∈ (w.view n).srcs, s ∈ g.nodes) ∧
      (∀ n ∈ g.nodes, (w.node n).name ≠ "" → ν n = (w.node n).name) ∧
      (∀ n ∈ g.nodes, (w.node n).name = "" → Invented (ν n)) ∧
      (∀ n ∈ g.nodes, ∀ m ∈ g.nodes, (w.node n).name = "" → (w.node m).name = "" → ν n = ν m → n = m) ∧
      ((∀ n ∈ g.nodes, ∀ m ∈ g.nodes, (w.node n).name ≠ "" → (w.node n).name = (w.node m).name → n = m) →
        (∀ n ∈ g.nodes, ¬ Invented (w.node n).name) →
        ∀ n ∈ g.nodes, ∀ m ∈ g.nodes, ν n = ν m → n = m) := by
  obtain ⟨hi, -, hn⟩ := wellUsed_hist h
  have hl : ∀ v, w.Live v ↔ v ∈ g.nodes := by intro v; unfold World.Live; rw [only]; simp
  have hd : ∀ n ∈ nodes, DataOK (w.node n) := by
    intro n hm
    have hg := hp.mem_iff.mp hm
    have hk := hn n ((hl n).mpr hg)
    unfold World.check at check
    rw [List.all_eq_true] at check
    refine ⟨by simpa using check n hg, hk.offset, fun ho => hk.shift ?_⟩
    show (w.node n).op ∈ _
    rcases ho with ho | ho <;> simp [ho]
  have h0 : NInv w ⟨0, []⟩ := ⟨by simp, by simp⟩
  obtain ⟨h1, -, h3, h4⟩ := elements_spec nodes ⟨0, []⟩ h0 hd
  let T := (elements w ⟨0, []⟩ nodes).1
  have hν : ∀ n x, nameIn w T n = some x → (nameIn w T n).getD "" = x := by intro n x e; rw [e]; rfl
  have named : ∀ n ∈ g.nodes, (w.node n).name ≠ "" → (nameIn w T n).getD "" = (w.node n).name := by
    intro n _ e; exact hν _ _ (by unfold nameIn; rw [if_pos e])
  have unnamed : ∀ n ∈ g.nodes, (w.node n).name = "" → ∃ x, T.map.lookup n = some x ∧ (nameIn w T n).getD "" = x := by
    intro n hg e
    obtain ⟨x, hx⟩ := h3 n (hp.mem_iff.mpr hg)
    refine ⟨x, ?_, hν n x hx⟩
    unfold nameIn at hx
    rw [if_neg (by simp [e])] at hx
    exact hx
  have inv : ∀ n ∈ g.nodes, (w.node n).name = "" → Invented ((nameIn w T n).getD "") := by
    intro n hg e
    obtain ⟨x, hx, e'⟩ := unnamed n hg e
    obtain ⟨k, -, ek⟩ := h1.small n x hx
    exact ⟨k, e'.trans ek⟩
  have uniq : ∀ n ∈ g.nodes, ∀ m ∈ g.nodes, (w.node n).name = "" → (w.node m).name = "" →
      (nameIn w T n).getD "" = (nameIn w T m).getD "" → n = m := by
    intro n hgn m hgm en em e
    obtain ⟨x, hx, ex⟩ := unnamed n hgn en
    obtain ⟨y, hy, ey⟩ := unnamed m hgm em
    rw [ex, ey] at e
    subst e
    exact h1.inj n m x hx hy
  refine ⟨fun n => (nameIn w T n).getD "", h4 _ hν, ?_, named, inv, uniq, ?_⟩
  · intro n hg s hs
    rw [view_srcs, List.mem_map] at hs
    obtain ⟨c, hc, rfl⟩ := hs
    exact (hl _).mp (hi.consistent.ins n ((hl n).mpr hg) c hc).2.1
  · intro hdis hninv n hgn m hgm e
    by_cases en : (w.node n).name = ""
    · by_cases em : (w.node m).name = ""
      · exact uniq n hgn m hgm en em e
      · dsimp only at e
        rw [named m hgm em] at e
        exact (hninv m hgm (e ▸ inv n hgn en)).elim
    · by_cases em : (w.node m).name = ""
      · dsimp only at e
        rw [named n hgn en] at e
        exact (hninv n hgn (e ▸ inv m hgm em)).elim
      · dsimp only at e
        rw [named n hgn en, named m hgm em] at e
        exact hdis n hgn m hgm en e

/-- The number of elements and arrows: nothing is drawn twice and nothing is left out. -/
theorem Shows.counts {w : World} {ν : Nat → String} {nodes : List Nat} {b : List Stmt} (h : Shows w ν nodes b) :
    b.length = nodes.length + (nodes.map fun n => (w.view n).srcs.length).sum := by
  induction h with
  | nil => rfl
  | cons _ _ ih =>
    simp only [List.length_cons, List.length_append, List.map_cons, List.sum_cons, ih, arrows, List.length_mapIdx]
    omega

end Verif.Dot
