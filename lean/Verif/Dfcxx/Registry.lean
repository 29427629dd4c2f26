import Verif.Dfcxx.WorldFinal
import Verif.Dfcxx.WorldExamples
/-
C86: kernel objects one after another and side by side.

Model of the two static variables that know which kernel is the top one: `Kernel::kernelStack` and `KernelMeta::top`.
Sources, under /repo/src/model/dfcxx: lib/dfcxx/kernel.cpp:27-35, lib/dfcxx/kernel_meta.cpp:13-25, include/dfcxx/kernel.h:39-48 and
98-103.
-/
namespace Verif.Dfcxx

/-- The static variables: `stack` is `Kernel::kernelStack` with the last element first, `top` is `KernelMeta::top`.  A kernel object and
its `meta` member have one number. -/
structure Registry where
  stack : List Nat
  top : Option Nat
  deriving DecidableEq, Repr

/-- Static initialisation (kernel.cpp:27, kernel_meta.cpp:13). -/
def Registry.init : Registry := ⟨[], none⟩

/-- The constructor: `KernelMeta::KernelMeta` for the member (kernel_meta.cpp:15-19), then the body of `Kernel::Kernel` (kernel.cpp:31-34). -/
def Registry.construct (r : Registry) (k : Nat) : Registry :=
  let top := if r.top = none then some k else r.top
  let stack := k :: r.stack
  ⟨stack, if stack.length = 1 then some k else top⟩

/-- The destructor: the body of `Kernel::~Kernel` (kernel.h:98-103), then `KernelMeta::~KernelMeta` (kernel_meta.cpp:21-25).
`pop_back` on an empty vector is undefined. -/
def Registry.destruct (r : Registry) (k : Nat) : Except Fault Registry :=
  match r.stack with
  | [] => .error .ub
  | _ :: stack =>
    let top := if stack = [] then none else r.top
    .ok ⟨stack, if top = some k then none else top⟩

/-- `Kernel::getTopKernel` (kernel.h:41-44): the first element. -/
def Registry.front (r : Registry) : Option Nat := r.stack.getLast?

/-- Construction and destruction of kernel objects. -/
inductive KEvent where
  | make (k : Nat)
  | drop (k : Nat)
  deriving DecidableEq, Repr

def Registry.step (r : Registry) : KEvent → Except Fault Registry
  | .make k => .ok (r.construct k)
  | .drop k => r.destruct k

def Registry.run : Registry → List KEvent → Except Fault Registry
  | r, [] => .ok r
  | r, e :: es => do
    let r ← r.step e
    r.run es

/-! ### Specification -/

/-- `Lives live es live'`: `es` is a possible sequence of constructions and destructions that begins with the live objects `live`
and ends with `live'`, the youngest first: an object is constructed while it is not live and destroyed while it is. -/
inductive Lives : List Nat → List KEvent → List Nat → Prop
  | nil (l : List Nat) : Lives l [] l
  | make {l l' : List Nat} {es : List KEvent} (k : Nat) : k ∉ l → Lives (k :: l) es l' → Lives l (.make k :: es) l'
  | drop {l l' : List Nat} {es : List KEvent} (k : Nat) : k ∈ l → Lives (l.erase k) es l' → Lives l (.drop k :: es) l'

/-- The oldest object is destroyed only when it is the only one. -/
def OldestLast : List Nat → List KEvent → Prop
  | _, [] => True
  | l, .make k :: es => OldestLast (k :: l) es
  | l, .drop k :: es => (l.getLast? = some k → l = [k]) ∧ OldestLast (l.erase k) es

/-! ### Theorems -/

theorem erase_getLast? {l : List Nat} {k : Nat} (hd : l.Nodup) (hk : k ∈ l) (hn : l.getLast? ≠ some k) :
    (l.erase k).getLast? = l.getLast? := by
  induction l with
  | nil => cases hk
  | cons a l ih =>
    rw [List.nodup_cons] at hd
    by_cases e : a = k
    · subst e
      rw [List.erase_cons_head]
      cases l with
      | nil => simp at hn
      | cons b l => rfl
    · rw [List.erase_cons_tail (by simpa using e)]
      have hk' : k ∈ l := (List.mem_cons.mp hk).resolve_left (fun h => e h.symm)
      have hl : l ≠ [] := List.ne_nil_of_mem hk'
      have h1 : (a :: l).getLast? = l.getLast? := by
        cases l with
        | nil => exact absurd rfl hl
        | cons b l => rfl
      rw [h1] at hn ⊢
      have he := ih hd.2 hk' hn
      have hne : l.erase k ≠ [] := by
        intro h0
        rw [h0] at he
        have := List.getLast?_eq_none_iff.mp he.symm
        exact hl this
      rw [← he]
      cases hx : l.erase k with
      | nil => exact absurd hx hne
      | cons b t => rfl

structure RInv (r : Registry) (l : List Nat) : Prop where
  nodup : l.Nodup
  len : r.stack.length = l.length
  top : r.top = l.getLast?
  front : r.front = l.getLast?

/-- **C86** (nesting): after any sequence of constructions and destructions in which the oldest kernel is destroyed last -- in
particular if they are nested, as instances are -- the library takes the oldest live kernel for the top one, and none if none is
live. -/
theorem oldest_is_top {es : List KEvent} {l : List Nat} (h : Lives [] es l) (ho : OldestLast [] es) :
    ∃ r, Registry.init.run es = .ok r ∧ r.top = l.getLast? ∧ r.front = l.getLast? ∧ r.stack.length = l.length := by
  have key : ∀ (l0 : List Nat) (es : List KEvent) (l : List Nat), Lives l0 es l → ∀ r, RInv r l0 → OldestLast l0 es →
      ∃ r', r.run es = .ok r' ∧ RInv r' l := by
    intro l0 es l h
    induction h with
    | nil => intro r hr _; exact ⟨r, rfl, hr⟩
    | @make l l' es k hk _ ih =>
      intro r hr ho
      obtain ⟨h1, h2, h3, h4⟩ := hr
      refine ih (r.construct k) ⟨List.nodup_cons.mpr ⟨hk, h1⟩, by simp [Registry.construct, h2], ?_, ?_⟩ ho
      · unfold Registry.construct
        dsimp only
        cases hl : l with
        | nil =>
          have : r.stack = [] := List.eq_nil_of_length_eq_zero (by rw [h2, hl]; rfl)
          rw [this]; rfl
        | cons a t =>
          rw [if_neg (by rw [List.length_cons, h2, hl]; simp), h3, hl, List.getLast?_cons_cons]
          have : ∃ x, (a :: t).getLast? = some x := ⟨_, List.getLast?_eq_some_getLast (by simp)⟩
          obtain ⟨x, hx⟩ := this
          rw [hx]; rfl
      · unfold Registry.construct Registry.front
        dsimp only
        cases hl : l with
        | nil =>
          have : r.stack = [] := List.eq_nil_of_length_eq_zero (by rw [h2, hl]; rfl)
          rw [this]
        | cons a t =>
          cases hs : r.stack with
          | nil => rw [hs, hl] at h2; cases h2
          | cons b u =>
            rw [List.getLast?_cons_cons, List.getLast?_cons_cons, ← hs, ← hl]
            exact h4
    | @drop l l' es k hk _ ih =>
      intro r hr ho
      obtain ⟨h1, h2, h3, h4⟩ := hr
      obtain ⟨ho1, ho2⟩ := ho
      have hd : ∃ a t, r.stack = a :: t := by
        cases hs : r.stack with
        | nil =>
          rw [hs] at h2
          have : l = [] := List.eq_nil_of_length_eq_zero h2.symm
          rw [this] at hk; cases hk
        | cons a t => exact ⟨a, t, rfl⟩
      obtain ⟨a, t, hs⟩ := hd
      have hlen : t.length = (l.erase k).length := by
        rw [List.length_erase_of_mem hk, ← h2, hs]; simp
      have hdes : r.destruct k = .ok ⟨t, if (if t = [] then none else r.top) = some k then none else if t = [] then none else r.top⟩ := by
        unfold Registry.destruct
        rw [hs]
      have run : r.run (.drop k :: es) = (⟨t, if (if t = [] then none else r.top) = some k then none else
          if t = [] then none else r.top⟩ : Registry).run es := by
        show (r.destruct k >>= fun r => r.run es) = _
        rw [hdes]; rfl
      rw [run]
      refine ih _ ⟨h1.erase k, hlen, ?_, ?_⟩ ho2
      · dsimp only
        by_cases ht : t = []
        · rw [if_pos ht]
          have : l.erase k = [] := List.eq_nil_of_length_eq_zero (by rw [← hlen, ht]; rfl)
          rw [this]; rfl
        · rw [if_neg ht, h3]
          have hne : l.getLast? ≠ some k := by
            intro e
            have := ho1 e
            rw [this] at hlen
            simp at hlen
            exact ht hlen
          rw [if_neg hne]
          exact (erase_getLast? h1 hk hne).symm
      · unfold Registry.front
        dsimp only
        by_cases ht : t = []
        · have : l.erase k = [] := List.eq_nil_of_length_eq_zero (by rw [← hlen, ht]; rfl)
          rw [ht, this]
        · have hne : l.getLast? ≠ some k := by
            intro e
            have := ho1 e
            rw [this] at hlen
            simp at hlen
            exact ht hlen
          rw [erase_getLast? h1 hk hne, ← h4]
          unfold Registry.front
          rw [hs]
          cases t with
          | nil => exact absurd rfl ht
          | cons b u => rfl
  obtain ⟨r, h1, h2⟩ := key [] es l h Registry.init ⟨List.nodup_nil, rfl, rfl, rfl⟩ ho
  exact ⟨r, h1, h2.top, h2.front, h2.len⟩

/-- **C86** (one after another): whatever the order of destruction, after the last kernel object is gone the library is as it was
at the start of the program. -/
theorem all_destroyed_fresh {es : List KEvent} (h : Lives [] es []) : Registry.init.run es = .ok Registry.init := by
  have key : ∀ (l0 : List Nat) (es : List KEvent) (l : List Nat), Lives l0 es l → ∀ r : Registry, r.stack.length = l0.length →
      (l0 = [] → r.top = none) → ∃ r', r.run es = .ok r' ∧ r'.stack.length = l.length ∧ (l = [] → r'.top = none) := by
    intro l0 es l h
    induction h with
    | nil => intro r hr ht; exact ⟨r, rfl, hr, ht⟩
    | @make l l' es k hk _ ih =>
      intro r hr _
      exact ih (r.construct k) (by simp [Registry.construct, hr]) (fun e => by cases e)
    | @drop l l' es k hk _ ih =>
      intro r hr _
      cases hs : r.stack with
      | nil =>
        rw [hs] at hr
        have : l = [] := List.eq_nil_of_length_eq_zero hr.symm
        rw [this] at hk; cases hk
      | cons a t =>
        have hlen : t.length = (l.erase k).length := by
          rw [List.length_erase_of_mem hk, ← hr, hs]; simp
        have run : r.run (.drop k :: es) = (⟨t, if (if t = [] then none else r.top) = some k then none else
            if t = [] then none else r.top⟩ : Registry).run es := by
          show (r.destruct k >>= fun r => r.run es) = _
          unfold Registry.destruct
          rw [hs]; rfl
        rw [run]
        refine ih _ hlen fun e => ?_
        have : t = [] := List.eq_nil_of_length_eq_zero (by rw [hlen, e]; rfl)
        simp [this]
  obtain ⟨r, h1, h2, h3⟩ := key [] es [] h Registry.init rfl (fun _ => rfl)
  rw [h1]
  have e1 : r.stack = [] := List.eq_nil_of_length_eq_zero h2
  have e2 := h3 rfl
  cases r
  simp_all [Registry.init]

/-- **C86** (negation): if the oldest kernel is destroyed while another one is alive, no kernel is the top one any more -- the next use of a
constant dereferences a null pointer (constant.cpp:37, graph.cpp:104) -- and the first element of `kernelStack`, which every
type constructor (`dfUInt`, ...) dereferences, is the destroyed object. -/
theorem oldest_destroyed_first {es : List KEvent} {l : List Nat} {k : Nat} (h : Lives [] es l) (ho : OldestLast [] es)
    (hk : l.getLast? = some k) (hl : l ≠ [k]) : ∃ r, Registry.init.run es = .ok r ∧
      ∃ r', r.step (.drop k) = .ok r' ∧ r'.top = none ∧ r'.front = some k := by
  obtain ⟨r, h1, h2, h3, h4⟩ := oldest_is_top h ho
  refine ⟨r, h1, ?_⟩
  cases hs : r.stack with
  | nil =>
    rw [hs] at h4
    have : l = [] := List.eq_nil_of_length_eq_zero h4.symm
    rw [this] at hk; cases hk
  | cons a t =>
    have ht : t ≠ [] := by
      rintro rfl
      rw [hs] at h4
      match l, h4 with
      | [x], _ =>
        simp at hk
        exact hl (by rw [hk])
    refine ⟨⟨t, none⟩, ?_, rfl, ?_⟩
    · show r.destruct k = _
      unfold Registry.destruct
      rw [hs]
      dsimp only
      rw [if_neg ht, h2, hk, if_pos rfl]
    · unfold Registry.front at h3 ⊢
      dsimp only
      rw [← hk, ← h3, hs]
      cases t with
      | nil => exact absurd rfl ht
      | cons b u => rfl

/-- Two kernels one inside the other, then a third; and two kernels side by side, the older destroyed first. -/
example : Lives [] [.make 1, .make 2, .drop 2, .drop 1, .make 3] [3] ∧ OldestLast [] [.make 1, .make 2, .drop 2, .drop 1, .make 3] := by
  refine ⟨.make 1 (by simp) (.make 2 (by simp) (.drop 2 (by simp) (.drop 1 (by simp) (.make 3 (by simp) (.nil _))))), ?_⟩
  simp [OldestLast]

example : Lives [] [.make 1, .make 2] [2, 1] ∧ OldestLast [] [.make 1, .make 2] ∧ [2, 1].getLast? = some 1 ∧ [2, 1] ≠ [1] :=
  ⟨.make 1 (by simp) (.make 2 (by simp) (.nil _)), by simp [OldestLast], rfl, by simp⟩

/-! ### Constants of a second kernel -/

theorem nodeStmt_reads {V : Nat → NodeV} {s : DState} {n : Nat} {st : DStmt} (hok : NodeOK (V n)) (h : nodeStmt V s n = .ok st)
    (ho : (V n).op ≠ .OUT) {a : Nat} (ha : a ∈ (V n).srcs) : s.map a ≠ none := by
  have get_ok : ∀ {x v}, s.get x = .ok v → s.map x ≠ none := by
    intro x v hx e
    unfold DState.get at hx
    rw [e] at hx; cases hx
  have at_ok : ∀ {i x}, insAt (V n) i = .ok x → (V n).srcs[i]? = some x := by
    intro i x hx
    unfold insAt at hx
    split at hx
    · injection hx with hx; rename_i e; rw [e, hx]
    · cases hx
  have hlen : (V n).srcs.length = (V n).ins.length := by simp [NodeV.srcs]
  unfold nodeStmt at h
  dsimp only at h
  split at h
  · rename_i k hb
    obtain ⟨x, x1, h⟩ := bind_ok h
    obtain ⟨vx, x2, h⟩ := bind_ok h
    obtain ⟨y, y1, h⟩ := bind_ok h
    obtain ⟨vy, y2, h⟩ := bind_ok h
    have h2 : (V n).ins.length = 2 := hok.binary (by cases hop : (V n).op <;> rw [hop] at hb <;> simp_all [binaryKind])
    have e1 := at_ok x1
    have e2 := at_ok y1
    rw [h2] at hlen
    have hx : (V n).srcs = [x, y] := by
      match hs : (V n).srcs, hlen with
      | [p, q], _ =>
        rw [hs] at e1 e2
        simp at e1 e2
        rw [e1, e2]
    rw [hx] at ha
    simp only [List.mem_cons, List.not_mem_nil, or_false] at ha
    rcases ha with rfl | rfl
    · exact get_ok x2
    · exact get_ok y2
  · rename_i hb
    split at h
    · rename_i k attr hu
      obtain ⟨x, x1, h⟩ := bind_ok h
      obtain ⟨vx, x2, h⟩ := bind_ok h
      have h1 : (V n).ins.length = 1 := by
        apply hok.unary
        unfold unaryKind at hu
        split at hu <;> simp_all
      have e1 := at_ok x1
      rw [h1] at hlen
      have hx : (V n).srcs = [x] := by
        match hs : (V n).srcs, hlen with
        | [p], _ =>
          rw [hs] at e1
          simp at e1
          rw [e1]
      rw [hx] at ha
      simp only [List.mem_cons, List.not_mem_nil, or_false] at ha
      subst ha
      exact get_ok x2
    · split at h
      · rename_i hop
        have := hok.source (Or.inl hop)
        rw [NodeV.srcs, this] at ha; cases ha
      · rename_i hop; exact absurd hop ho
      · rename_i hop
        have := hok.source (Or.inr hop)
        rw [NodeV.srcs, this] at ha; cases ha
      · rename_i hop
        obtain ⟨hd, hl⟩ := hok.mux hop
        rw [hd] at h
        dsimp only at h
        obtain ⟨x, x1, h⟩ := bind_ok h
        obtain ⟨vx, x2, h⟩ := bind_ok h
        obtain ⟨ys, y1, h⟩ := bind_ok h
        have e1 := at_ok x1
        cases hs : (V n).srcs with
        | nil => rw [hs] at ha; cases ha
        | cons c alts =>
          rw [hs] at e1 y1 ha
          simp at e1
          rw [muxOperands_zero] at y1
          rcases List.mem_cons.mp ha with rfl | ha
          · rw [e1]; exact get_ok x2
          · have mapM_ok : ∀ (l : List Nat) (ys : List Nat), l.mapM s.get = .ok ys → ∀ z ∈ l, s.map z ≠ none := by
              intro l
              induction l with
              | nil => intro _ _ z hz; cases hz
              | cons b l ih =>
                intro ys hy z hz
                rw [List.mapM_cons] at hy
                obtain ⟨u, u1, hy⟩ := bind_ok hy
                obtain ⟨us, u2, hy⟩ := bind_ok hy
                rcases List.mem_cons.mp hz with rfl | hz
                · exact get_ok u1
                · exact ih us u2 z hz
            exact mapM_ok _ _ y1 a (by simpa using ha)
      · cases h

/-- Only nodes already processed are in the map. -/
theorem translate_map {V : Nat → NodeV} {s s' : DState} {n m : Nat} (h : translate V s n = .ok s') (hm : m ≠ n) :
    s'.map m = s.map m := by
  unfold translate at h
  obtain ⟨st, h1, h⟩ := bind_ok h
  dsimp only at h
  split at h
  · obtain ⟨d, h2, h⟩ := bind_ok h
    obtain ⟨v, h3, h⟩ := bind_ok h
    injection h with h
    rw [← h]
    exact if_neg hm
  · injection h with h
    rw [← h]
    exact if_neg hm

/-- A graph with a node that reads something outside of it cannot be translated, whatever the order. -/
theorem foreign_operand_not_translated {V : Nat → NodeV} {order : List Nat} {n a : Nat} (hn : n ∈ order) (hok : NodeOK (V n))
    (ho : (V n).op ≠ .OUT ∨ getConnection (V n) = some a) (ha : a ∈ (V n).srcs) (hna : a ∉ order) :
    ∀ prog, buildBody V order ≠ .ok prog := by
  have hne : a ≠ n := fun e => hna (e ▸ hn)
  have hT : ∀ s s', s.map a = none → translate V s n ≠ .ok s' := by
    intro s s' h0 h
    unfold translate at h
    obtain ⟨st, h1, h⟩ := bind_ok h
    rcases ho with ho | ho
    · exact nodeStmt_reads hok h1 ho ha h0
    · dsimp only at h
      rw [ho] at h
      dsimp only at h
      obtain ⟨d, h2, h⟩ := bind_ok h
      obtain ⟨v, h3, h⟩ := bind_ok h
      unfold DState.get at h3
      dsimp only at h3
      rw [if_neg hne, h0] at h3
      cases h3
  have key : ∀ (l : List Nat) (s : DState), n ∈ l → a ∉ l → s.map a = none → ∀ s', buildFrom V s l ≠ .ok s' := by
    intro l
    induction l with
    | nil => intro s h; cases h
    | cons m l ih =>
      intro s hm hal h0 s' h
      unfold buildFrom at h
      obtain ⟨s1, h1, h⟩ := bind_ok h
      rcases List.mem_cons.mp hm with rfl | hm
      · exact hT s s1 h0 h1
      · refine ih s1 hm (fun x => hal (List.mem_cons_of_mem _ x)) ?_ s' h
        rw [translate_map h1 (fun e => hal (by rw [e]; simp))]
        exact h0
  intro prog hp
  unfold buildBody at hp
  obtain ⟨s, h1, -⟩ := bind_ok hp
  exact key order .init hn hna rfl s h1

/-- **C86** (constants side by side): a kernel that is constructed while an older one is alive (`g` is not the top graph) has no
constants of its own: they are nodes of the oldest kernel's graph.  If one of its nodes reads a constant, the kernel cannot be translated,
whatever the order in which its nodes are visited. -/
theorem second_kernel_constants {F : FloatOps} {w : World} {g : KGraph} (h : Hist F WellUsed World.init w) (hg : g ∈ w.stack)
    (h0 : g.id ≠ 0) : (∀ n ∈ g.nodes, (w.node n).op ≠ .CONST) ∧
      ∀ n ∈ g.nodes, ∀ a ∈ (w.view n).srcs, (w.node a).op = .CONST → ((w.node n).op ≠ .OUT ∨ (w.node n).ins.length = 1) →
        ∀ order : List Nat, order.Perm g.nodes → ∀ prog, buildBody w.view order ≠ .ok prog := by
  obtain ⟨hi, -, hn⟩ := wellUsed_hist h
  have hc : ∀ n ∈ g.nodes, (w.node n).op ≠ .CONST := fun n hm e => h0 (hi.st.constTop g hg n hm e).2
  refine ⟨hc, fun n hm a ha hop hout order hperm => ?_⟩
  refine foreign_operand_not_translated (hperm.mem_iff.mpr hm) (hn n ⟨g, hg, hm⟩) ?_ ha fun hma => hc a (hperm.mem_iff.mp hma) hop
  by_cases ho : (w.node n).op = .OUT
  · have h1 := hout.resolve_left (fun x => x ho)
    right
    have hl : (w.view n).ins.length = 1 := by rw [view_ins]; unfold insV; rw [List.length_map]; exact h1
    match hs : (w.view n).ins, hl with
    | [(b, f)], _ =>
      have hf : f = true := (hn n ⟨g, hg, hm⟩).flagsT (Or.inl ho) (b, f) (by rw [hs]; simp)
      unfold NodeV.srcs at ha
      rw [hs] at ha
      simp at ha
      unfold getConnection
      rw [hs, ha, hf]
  · exact Or.inl ho

/-- The case is possible: a second kernel `y = x + 1` next to an empty one. -/
theorem second_kernel_example (F : FloatOps) : ∃ w g, Hist F WellUsed World.init w ∧ g ∈ w.stack ∧ g.id ≠ 0 ∧
    ∃ n ∈ g.nodes, ∃ a ∈ (w.view n).srcs, (w.node a).op = .CONST ∧ (w.node n).op ≠ .OUT := by
  have h1 : World.init.exec F .beginInst = .ok (_, _) := rfl
  have h2 := Hist.snoc (P := WellUsed) .beginInst (.nil World.init) (proper_simple (Or.inr rfl)).1 h1
  have h3 := Hist.snoc (P := WellUsed) (rs := [0]) (.input false "x" u8t) h2 (proper_simple (Or.inl rfl)).1 rfl
  have h4 := Hist.snoc (P := WellUsed) (rs := [1]) (.const u8t 1) h3 (proper_simple (Or.inl rfl)).1 rfl
  have h5 := Hist.snoc (P := WellUsed) (rs := [2]) (.bin .ADD 0 1) h4 (proper_simple (Or.inl rfl)).1 rfl
  refine ⟨_, ⟨1, [2, 0], [0], [("x", 0)]⟩, h5, List.mem_cons_self .., by decide, 2, by decide, 1, by decide, rfl, ?_⟩
  show OpType.ADD ≠ OpType.OUT
  decide

end Verif.Dfcxx
