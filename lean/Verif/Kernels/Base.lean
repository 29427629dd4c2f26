import Verif.Flow.Eval
import Verif.Dfcxx.CallProps
import Verif.Dfcxx.WorldInline
/-
Programs that build kernels, and a small Hoare logic for them: what the stream of every variable is, at one tick, as a function of the
values of the inputs.
-/
namespace Verif.Kernels
open Verif.Dfcxx Verif.Flow

/-- A piece of kernel code: it calls the API and may fail. -/
abbrev Build (α : Type) := StateT World (Except Fault) α

/-- An API call that returns one variable. -/
def call1 (F : FloatOps) (c : Cmd) : Build Nat := fun w =>
  match w.exec F c with
  | .ok (w', [n]) => .ok (n, w')
  | .ok _ => .error .ub
  | .error e => .error e

/-- Any API call, with what it returns. -/
def call (F : FloatOps) (c : Cmd) : Build (List Nat) := fun w =>
  match w.exec F c with
  | .ok (w', rs) => .ok (rs, w')
  | .error e => .error e

/-- Code over the elements of a list, one after the other. -/
def forEach {α β : Type} (f : α → Build β) : List α → Build (List β)
  | [] => pure []
  | a :: l => do
    let b ← f a
    let bs ← forEach f l
    pure (b :: bs)

/-! ### Nodes -/

/-- Operators do not change under a relabelling of their operands by similar ones. -/
structure Like (Z : String → Prop) (v v' : NodeV) : Prop where
  width : width v'.ty = width v.ty
  sign : v'.ty.isSigned = v.ty.isSigned
  notOut : v'.op ≠ .OUT
  notNone : v'.op ≠ .NONE
  const : v.op = .CONST → v'.op = .CONST
  kind : v.kind = .stream → (v.op = .IN → ¬ Z v.name) → v'.kind = .stream ∧ (v'.op = .IN → ¬ Z v'.name)

/-- Nodes of the kernels considered: everything unsigned, nothing the back end gets wrong, multiplexers with enough alternatives.  `Z`: the
names of inputs that may be bound to constants; they do not select. -/
structure NodeOK (Z : String → Prop) (V : Nat → NodeV) (n : Nat) : Prop where
  supp : ∀ L, Supported V L n
  uns : unsignedTy (V n).ty
  notNone : (V n).op ≠ .NONE
  notOffset : (V n).op ≠ .OFFSET
  notNot : (V n).op ≠ .NOT
  srcs : ∀ s ∈ (V n).srcs, (V s).op ≠ .OUT ∧ (V s).op ≠ .NONE
  few : (V n).srcs.length ≤ 128 ∨ ∀ s ∈ (V n).srcs.tail, (V s).op = .CONST
  mux : (V n).op = .MUX → ∀ c alts, (V n).srcs = c :: alts → 2 ^ width (V c).ty ≤ alts.length ∧ ((V c).op = .IN → ¬ Z (V c).name)
  out : (V n).op = .OUT → (V n).ins.length = 1
  noDist : ∀ j, (V n).data ≠ .offset j

theorem NodeOK.like {Z : String → Prop} {V V' : Nat → NodeV} {n : Nat} {σ : Nat → Nat} (h : NodeOK Z V n)
    (hop : (V' n).op = (V n).op) (hd : (V' n).data = (V n).data) (hty : (V' n).ty = (V n).ty)
    (hk : (V' n).kind = (V n).kind) (hs : (V' n).srcs = (V n).srcs.map σ) (hl : ∀ s ∈ (V n).srcs, Like Z (V s) (V' (σ s))) :
    NodeOK Z V' n := by
  have hlen : (V' n).ins.length = (V n).ins.length := by
    have := congrArg List.length hs
    simpa [NodeV.srcs] using this
  have pair : ∀ {a b : Nat}, (V' n).srcs = [a, b] → ∃ a0 b0, (V n).srcs = [a0, b0] ∧ a = σ a0 ∧ b = σ b0 := by
    intro a b e
    rw [hs] at e
    match hq : (V n).srcs with
    | [] => rw [hq] at e; cases e
    | [x] => rw [hq] at e; cases e
    | [x, y] => rw [hq] at e; cases e; exact ⟨x, y, rfl, rfl, rfl⟩
    | x :: y :: z :: r => rw [hq] at e; cases e
  have cons : ∀ {c : Nat} {alts : List Nat}, (V' n).srcs = c :: alts → ∃ c0 alts0, (V n).srcs = c0 :: alts0 ∧ c = σ c0 ∧ alts = alts0.map σ := by
    intro c alts e
    rw [hs] at e
    match hq : (V n).srcs with
    | [] => rw [hq] at e; cases e
    | x :: r => rw [hq] at e; cases e; exact ⟨x, r, rfl, rfl, rfl⟩
  have mem : ∀ {s : Nat}, s ∈ (V' n).srcs → ∃ s0 ∈ (V n).srcs, s = σ s0 := by
    intro s e
    rw [hs] at e
    obtain ⟨s0, h0, rfl⟩ := List.mem_map.mp e
    exact ⟨s0, h0, rfl⟩
  refine ⟨fun L => ?_, by rw [hty]; exact h.uns, by rw [hop]; exact h.notNone, by rw [hop]; exact h.notOffset, by rw [hop]; exact h.notNot, ?_, ?_, ?_, ?_, by rw [hd]; exact h.noDist⟩
  · have hsup := h.supp L
    unfold Supported at hsup ⊢
    rw [hop, hty, hd, hk]
    refine ⟨hsup.1, ?_⟩
    have hs2 := hsup.2
    cases ho : (V n).op <;> rw [ho] at hs2 <;> simp only at hs2 ⊢
    case NOT => exact absurd ho h.notNot
    case OFFSET => exact absurd ho h.notOffset
    case OUT =>
      intro s e; obtain ⟨s0, h0, rfl⟩ := mem e
      obtain ⟨w1, w2⟩ := hs2 s0 h0
      exact ⟨(hl s0 h0).width.trans w1, (hl s0 h0).sign.trans w2⟩
    case SHR =>
      intro s e; obtain ⟨s0, h0, rfl⟩ := mem e
      obtain ⟨w1, w2⟩ := hs2 s0 h0
      exact ⟨(hl s0 h0).width.trans w1, (hl s0 h0).sign.trans w2⟩
    case SHL =>
      refine ⟨hs2.1, ?_⟩
      intro s e; obtain ⟨s0, h0, rfl⟩ := mem e
      obtain ⟨w1, w2⟩ := hs2.2 s0 h0
      exact ⟨(hl s0 h0).width.trans w1, (hl s0 h0).sign.trans w2⟩
    case CAST =>
      intro s e; obtain ⟨s0, h0, rfl⟩ := mem e
      rw [(hl s0 h0).width, (hl s0 h0).sign]
      exact hs2 s0 h0
    case BITS =>
      intro l r e
      obtain ⟨a1, a2, a3, a4⟩ := hs2 l r e
      refine ⟨a1, a2, a3, ?_⟩
      intro s e; obtain ⟨s0, h0, rfl⟩ := mem e
      rw [(hl s0 h0).width]
      exact a4 s0 h0
    case MUX =>
      intro c alts e
      obtain ⟨c0, alts0, e0, rfl, rfl⟩ := cons e
      obtain ⟨b1, b2, b3⟩ := hs2 c0 alts0 e0
      have hc0 : c0 ∈ (V n).srcs := by rw [e0]; simp
      refine ⟨((hl c0 hc0).kind b1 (h.mux ho c0 alts0 e0).2).1, ?_, ?_⟩
      · intro hh; exact b2 (List.map_eq_nil_iff.mp hh)
      · intro a ha
        obtain ⟨a0, ha0, rfl⟩ := List.mem_map.mp ha
        have hm : a0 ∈ (V n).srcs := by rw [e0]; simp [ha0]
        obtain ⟨w1, w2⟩ := b3 a0 ha0
        exact ⟨(hl a0 hm).width.trans w1, (hl a0 hm).sign.trans w2⟩
    case AND | OR | XOR =>
      refine ⟨hs2.1, ?_⟩
      intro a b e
      obtain ⟨a0, b0, e0, rfl, rfl⟩ := pair e
      have la := hl a0 (by rw [e0]; simp)
      have lb := hl b0 (by rw [e0]; simp)
      simp only [unsignedTy, la.width, la.sign, lb.width, lb.sign]
      exact hs2.2 a0 b0 e0
    case CAT =>
      refine ⟨hs2.1, ?_⟩
      intro a b e
      obtain ⟨a0, b0, e0, rfl, rfl⟩ := pair e
      have la := hl a0 (by rw [e0]; simp)
      have lb := hl b0 (by rw [e0]; simp)
      rw [la.width, la.sign, lb.width, lb.sign]
      exact hs2.2 a0 b0 e0
    case ADD | SUB | MUL =>
      intro a b e
      obtain ⟨a0, b0, e0, rfl, rfl⟩ := pair e
      have la := hl a0 (by rw [e0]; simp)
      have lb := hl b0 (by rw [e0]; simp)
      simp only [unsignedTy, la.width, la.sign, lb.width, lb.sign]
      exact hs2 a0 b0 e0
    case LESS | LESSEQ | GREATER | GREATEREQ | EQ | NEQ =>
      refine ⟨hs2.1, ?_⟩
      intro a b e
      obtain ⟨a0, b0, e0, rfl, rfl⟩ := pair e
      have la := hl a0 (by rw [e0]; simp)
      have lb := hl b0 (by rw [e0]; simp)
      simp only [unsignedTy, la.width, la.sign, lb.width, lb.sign]
      exact hs2.2 a0 b0 e0
  · intro s e; obtain ⟨s0, h0, rfl⟩ := mem e
    exact ⟨(hl s0 h0).notOut, (hl s0 h0).notNone⟩
  · rcases h.few with h1 | h1
    · left; rw [hs, List.length_map]; exact h1
    · right
      intro s e
      rw [hs, ← List.map_tail] at e
      obtain ⟨s0, h0, rfl⟩ := List.mem_map.mp e
      exact (hl s0 (List.mem_of_mem_tail h0)).const (h1 s0 h0)
  · intro ho c alts e
    rw [hop] at ho
    obtain ⟨c0, alts0, e0, rfl, rfl⟩ := cons e
    have hc0 : c0 ∈ (V n).srcs := by rw [e0]; simp
    have hm := h.mux ho c0 alts0 e0
    have hs2 := (h.supp 0).2
    rw [ho] at hs2
    simp only at hs2
    refine ⟨by rw [(hl c0 hc0).width, List.length_map]; exact hm.1, ((hl c0 hc0).kind (hs2 c0 alts0 e0).1 hm.2).2⟩
  · intro ho; rw [hlen]; exact h.out (hop ▸ ho)

theorem Like.refl {Z : String → Prop} {v : NodeV} (h : v.op ≠ .OUT ∧ v.op ≠ .NONE) : Like Z v v :=
  ⟨rfl, rfl, h.1, h.2, id, fun a b => ⟨a, b⟩⟩

/-- A node whose operands have not changed. -/
theorem NodeOK.same {Z : String → Prop} {V V' : Nat → NodeV} {n : Nat} (h : NodeOK Z V n) (hn : V' n = V n)
    (hs : ∀ s ∈ (V n).srcs, V' s = V s) : NodeOK Z V' n :=
  h.like (σ := id) (by rw [hn]) (by rw [hn]) (by rw [hn]) (by rw [hn]) (by rw [hn, List.map_id])
    fun s e => by rw [id, hs s e]; exact .refl (h.srcs s e)

/-! ### States -/

/-- Values of the nodes satisfying the equations of all nodes; inputs have any values of their types. -/
structure Sat (w : World) (ρ : Nat → Pat) : Prop where
  eqs : EquationsX (· = .IN) (patInterp fun _ => (0, 0)) w ρ
  ins : ∀ m, w.Live m → (w.node m).op = .IN → (ρ m).1 = width (w.node m).ty ∧ (ρ m).2 < 2 ^ width (w.node m).ty

/-- A state the rules apply in.  `N`: the variables promised but not yet defined, and the outputs not yet connected. -/
structure Good (F : FloatOps) (Z : String → Prop) (N : List Nat) (w : World) : Prop where
  hist : Hist F Proper World.init w
  ok : ∀ n, w.Live n → n ∉ N → NodeOK Z w.view n
  pend : ∀ n ∈ N, w.Live n ∧ ((w.node n).op = .NONE ∨ ((w.node n).op = .OUT ∧ TypeOK (w.node n).ty ∧ unsignedTy (w.node n).ty ∧ (w.node n).data = .none)) ∧
    (w.node n).ins = [] ∧ (w.node n).outs = []
  ported : ∀ g ∈ w.stack, ∀ n ∈ g.nodes, (w.node n).op = .IN ∨ (w.node n).op = .OUT → g.names.lookup (w.node n).name = some n

/-- The kernels under construction, with the names of their ports. -/
def shape (w : World) : List (Nat × List (String × Nat)) := w.stack.map fun g => (g.id, g.names)

def addNames (ps : List (String × Nat)) : List (Nat × List (String × Nat)) → List (Nat × List (String × Nat))
  | [] => []
  | (k, ns) :: r => (k, ps ++ ns) :: r

/-- What code does to what was there before: nothing, but for new ports `ps` and definitions of pending variables. -/
structure Step (ps : List (String × Nat)) (w w' : World) : Prop where
  live : ∀ n, w.Live n → (w.node n).op ≠ .NONE → w'.Live n
  same : ∀ n, w.Live n → (w.node n).op ≠ .NONE → FieldsEq (w.node n) (w'.node n)
  keep : ∀ n, n < w.next → w'.Live n → w.Live n ∧ FieldsEq (w.node n) (w'.node n)
  next : w.next ≤ w'.next
  eqs : ∀ ρ, EquationsX (· = .IN) (patInterp fun _ => (0, 0)) w' ρ → EquationsX (· = .IN) (patInterp fun _ => (0, 0)) w ρ
  shape : shape w' = addNames ps (shape w)

theorem addNames_nil (l : List (Nat × List (String × Nat))) : addNames [] l = l := by cases l <;> rfl

theorem addNames_add (ps qs : List (String × Nat)) (l : List (Nat × List (String × Nat))) :
    addNames qs (addNames ps l) = addNames (qs ++ ps) l := by
  cases l with
  | nil => rfl
  | cons x r => simp [addNames, List.append_assoc]

theorem Step.refl (w : World) : Step [] w w :=
  ⟨fun _ h _ => h, fun _ _ _ => .refl _, fun _ _ h => ⟨h, .refl _⟩, Nat.le_refl _, fun _ h => h, (addNames_nil _).symm⟩

theorem Step.sat {ps : List (String × Nat)} {w w' : World} (h : Step ps w w') (ρ : Nat → Pat) (hs : Sat w' ρ) : Sat w ρ := by
  refine ⟨h.eqs ρ hs.eqs, fun m hm ho => ?_⟩
  have hn : (w.node m).op ≠ .NONE := by rw [ho]; simp
  obtain ⟨a, -, t, -⟩ := h.same m hm hn
  have := hs.ins m (h.live m hm hn) (by rw [a]; exact ho)
  rw [t] at this
  exact this

theorem Step.trans {ps qs : List (String × Nat)} {w w1 w2 : World} (h : Step ps w w1) (h' : Step qs w1 w2) : Step (qs ++ ps) w w2 := by
  have key : ∀ n, w.Live n → (w.node n).op ≠ .NONE → (w1.node n).op ≠ .NONE := fun n hl hn => by rw [(h.same n hl hn).1]; exact hn
  refine ⟨fun n hl hn => h'.live n (h.live n hl hn) (key n hl hn), fun n hl hn => (h.same n hl hn).trans (h'.same n (h.live n hl hn) (key n hl hn)),
    fun n hl hn => ?_, h.next.trans h'.next, fun ρ hs => h.eqs ρ (h'.eqs ρ hs), by rw [h'.shape, h.shape, addNames_add]⟩
  obtain ⟨a, b⟩ := h'.keep n (Nat.lt_of_lt_of_le hl h.next) hn
  obtain ⟨c, d⟩ := h.keep n hl a
  exact ⟨c, d.trans b⟩

theorem cur_shape (w : World) : w.cur = ((shape w).head?.map Prod.fst).getD 0 := by
  unfold World.cur shape
  cases w.stack <;> rfl

theorem Step.cur {ps : List (String × Nat)} {w w' : World} (h : Step ps w w') : w'.cur = w.cur := by
  rw [cur_shape, cur_shape, h.shape]
  cases Kernels.shape w <;> rfl

/-! ### Assertions -/

/-- A variable of the kernel under construction. -/
structure Here (w : World) (n : Nat) : Prop where
  live : w.Live n
  kern : (w.node n).kern = w.cur
  notNone : (w.node n).op ≠ .NONE

/-- Variable `n`, usable as an operand, has value `e ρ` in every valuation. -/
structure Val {k : Nat} (w : World) (n : Nat) (e : (Nat → Pat) → BitVec k) : Prop where
  live : w.Live n
  use : (w.node n).kern = w.cur ∨ (w.node n).op = .CONST
  notOut : (w.node n).op ≠ .OUT
  notNone : (w.node n).op ≠ .NONE
  width : width (w.node n).ty = k
  val : ∀ ρ, Sat w ρ → ρ n = (k, (e ρ).toNat)

/-- ... and is a stream of the kernel under construction that may select. -/
structure Str {k : Nat} (Z : String → Prop) (w : World) (n : Nat) (e : (Nat → Pat) → BitVec k) : Prop where
  val : Val w n e
  here : (w.node n).kern = w.cur
  kind : (w.node n).kind = .stream
  sel : (w.node n).op = .IN → ¬ Z (w.node n).name

theorem Here.mono {ps : List (String × Nat)} {w w' : World} {n : Nat} (h : Here w n) (st : Step ps w w') : Here w' n := by
  obtain ⟨a, -, -, -, -, b⟩ := st.same n h.live h.notNone
  exact ⟨st.live n h.live h.notNone, by rw [b, st.cur, h.kern], by rw [a]; exact h.notNone⟩

theorem Val.mono {k : Nat} {ps : List (String × Nat)} {w w' : World} {n : Nat} {e : (Nat → Pat) → BitVec k} (h : Val w n e)
    (st : Step ps w w') : Val w' n e := by
  obtain ⟨a, -, t, -, -, b⟩ := st.same n h.live h.notNone
  exact ⟨st.live n h.live h.notNone, by rw [a, b, st.cur]; exact h.use, by rw [a]; exact h.notOut, by rw [a]; exact h.notNone,
    by rw [t]; exact h.width, fun ρ hs => h.val ρ (st.sat ρ hs)⟩

theorem Str.mono {k : Nat} {Z : String → Prop} {ps : List (String × Nat)} {w w' : World} {n : Nat} {e : (Nat → Pat) → BitVec k}
    (h : Str Z w n e) (st : Step ps w w') : Str Z w' n e := by
  obtain ⟨a, -, t, kd, nm, b⟩ := st.same n h.val.live h.val.notNone
  exact ⟨h.val.mono st, by rw [b, st.cur]; exact h.here, by rw [kd]; exact h.kind, by rw [a, nm]; exact h.sel⟩

theorem Val.congr {k : Nat} {w : World} {n : Nat} {e e' : (Nat → Pat) → BitVec k} (h : Val w n e) (he : ∀ ρ, Sat w ρ → e ρ = e' ρ) :
    Val w n e' := ⟨h.live, h.use, h.notOut, h.notNone, h.width, fun ρ hs => by rw [← he ρ hs]; exact h.val ρ hs⟩

theorem Str.congr {k : Nat} {Z : String → Prop} {w : World} {n : Nat} {e e' : (Nat → Pat) → BitVec k} (h : Str Z w n e)
    (he : ∀ ρ, Sat w ρ → e ρ = e' ρ) : Str Z w n e' := ⟨h.val.congr he, h.here, h.kind, h.sel⟩

theorem Str.hereOf {k : Nat} {Z : String → Prop} {w : World} {n : Nat} {e : (Nat → Pat) → BitVec k} (h : Str Z w n e) : Here w n :=
  ⟨h.val.live, h.here, h.val.notNone⟩

/-! ### Programs -/

/-- Code `p`, run in `w`, succeeds, leaves everything as it was, and its result satisfies `Q`. -/
def Does {α : Type} (F : FloatOps) (Z : String → Prop) (N : List Nat) (p : Build α) (w : World) (Q : α → World → Prop) : Prop :=
  ∃ r w', p w = .ok (r, w') ∧ Good F Z N w' ∧ Step [] w w' ∧ Q r w'

section
variable {F : FloatOps} {Z : String → Prop} {N : List Nat} {w : World}

theorem Does.pure {α : Type} {a : α} {Q : α → World → Prop} (hg : Good F Z N w) (h : Q a w) : Does F Z N (pure a) w Q :=
  ⟨a, w, rfl, hg, .refl w, h⟩

theorem Does.bind {α β : Type} {p : Build α} {f : α → Build β} {Q : α → World → Prop} {R : β → World → Prop}
    (h : Does F Z N p w Q) (hf : ∀ r w1, Good F Z N w1 → Step [] w w1 → Q r w1 → Does F Z N (f r) w1 R) : Does F Z N (p >>= f) w R := by
  obtain ⟨r, w1, h1, h2, h3, h4⟩ := h
  obtain ⟨r', w2, g1, g2, g3, g4⟩ := hf r w1 h2 h3 h4
  refine ⟨r', w2, ?_, g2, h3.trans g3, g4⟩
  show StateT.bind p f w = _
  unfold StateT.bind
  rw [h1]
  exact g1

theorem Does.weaken {α : Type} {p : Build α} {Q R : α → World → Prop} (h : Does F Z N p w Q)
    (hqr : ∀ r w1, Good F Z N w1 → Step [] w w1 → Q r w1 → R r w1) : Does F Z N p w R := by
  obtain ⟨r, w1, h1, h2, h3, h4⟩ := h
  exact ⟨r, w1, h1, h2, h3, hqr r w1 h2 h3 h4⟩

/-- Code over a list: results that satisfy a relation stable under later code. -/
theorem forEach_does {α β : Type} {f : α → Build β} {R : α → β → World → Prop} (hmono : ∀ a b w w', R a b w → Step [] w w' → R a b w') :
    ∀ (l : List α) (w : World), Good F Z N w →
      (∀ a ∈ l, ∀ w1, Good F Z N w1 → Step [] w w1 → Does F Z N (f a) w1 (R a)) →
      Does F Z N (forEach f l) w (fun bs w' => List.Forall₂ (fun a b => R a b w') l bs)
  | [], w, hg, _ => Does.pure hg .nil
  | a :: l, w, hg, h => by
    unfold forEach
    refine (h a (by simp) w hg (.refl w)).bind fun b w1 g1 s1 q1 => ?_
    refine (forEach_does hmono l w1 g1 fun a' ha' w2 g2 s2 => h a' (by simp [ha']) w2 g2 (s1.trans s2)).bind fun bs w2 g2 s2 q2 => ?_
    exact Does.pure g2 (.cons (hmono _ _ _ _ q1 s2) q2)

end

end Verif.Kernels
