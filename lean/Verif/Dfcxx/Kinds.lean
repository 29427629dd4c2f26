import Verif.Dfcxx.WorldSpec
/-
Which kinds of variables nodes have: inputs, outputs and shallow variables are streams or scalars, constants are constants, results of
operators are streams.
-/
namespace Verif.Dfcxx

/-- The kind of variable an operation of this sort has. -/
def KindOK (op : OpType) (kind : VarKind) : Prop :=
  match op with
  | .IN | .OUT | .NONE => kind = .stream ∨ kind = .scalar
  | .CONST => ∃ c, kind = .const c
  | _ => kind = .stream

def KindInv (w : World) : Prop := ∀ m, KindOK (w.node m).op (w.node m).kind

/-- Operator and kind of every node are the same. -/
def SameKinds (w w' : World) : Prop := ∀ m, (w'.node m).op = (w.node m).op ∧ (w'.node m).kind = (w.node m).kind

theorem SameKinds.refl (w : World) : SameKinds w w := fun _ => ⟨rfl, rfl⟩

theorem SameKinds.trans {a b c : World} (h : SameKinds a b) (h' : SameKinds b c) : SameKinds a c :=
  fun m => ⟨(h' m).1.trans (h m).1, (h' m).2.trans (h m).2⟩

theorem SameKinds.inv {w w' : World} (h : SameKinds w w') (hk : KindInv w) : KindInv w' := fun m => by
  rw [(h m).1, (h m).2]; exact hk m

theorem addNode_kinds {w : World} {k : Nat} {r : NodeRec} (hr : KindOK r.op r.kind) (hk : KindInv w) : KindInv (w.addNode k r) := by
  intro m
  by_cases h : m = w.next
  · simp [World.addNode, h, hr]
  · simp only [World.addNode, h, if_false]; exact hk m

theorem link_kinds (w : World) (s t i : Nat) (c : Bool) : SameKinds w (w.link s t i c) := by
  intro m
  simp only [World.link]
  constructor <;> (split <;> split <;> rfl)

theorem addChannel_kinds {w w' : World} {k s t i : Nat} {c : Bool} (h : w.addChannel k s t i c = .ok w') : SameKinds w w' := by
  unfold World.addChannel at h
  split at h
  · split at h
    · cases h; exact link_kinds _ _ _ _ _
    · cases h
  · cases h

theorem addOperands_kinds {k t : Nat} : ∀ (l : List Nat) (i : Nat) {w w' : World}, w.addOperands k t i l = .ok w' → SameKinds w w'
  | [], _, w, w', h => by cases h; exact .refl _
  | a :: l, i, w, w', h => by
    simp only [World.addOperands, bind, Except.bind] at h
    split at h
    · cases h
    · rename_i w1 h1
      exact (addChannel_kinds h1).trans (addOperands_kinds l _ h)

theorem newOp_kinds {w w' : World} {k n : Nat} {op : OpType} {data : NodeData} {ty : DFType} {l : List Nat} (hop : KindOK op .stream)
    (h : w.newOp k op data ty l = .ok (w', n)) (hk : KindInv w) : KindInv w' := by
  unfold World.newOp at h
  split at h
  · cases h
  · simp only [bind, Except.bind] at h
    split at h
    · cases h
    · rename_i w1 h1
      simp only [pure, Except.pure, Except.ok.injEq, Prod.mk.injEq] at h
      obtain ⟨rfl, -⟩ := h
      exact (addOperands_kinds _ _ h1).inv (addNode_kinds hop hk)

theorem createOrUseConst_kinds {w w' : World} {ty : DFType} {v : Word} {n : Nat} (h : w.createOrUseConst ty v = .ok (w', n))
    (hk : KindInv w) : KindInv w' := by
  unfold World.createOrUseConst at h
  split at h
  · cases h
  · split at h <;> (simp only [Except.ok.injEq, Prod.mk.injEq] at h; obtain ⟨rfl, -⟩ := h)
    · exact hk
    · exact addNode_kinds ⟨v, rfl⟩ hk

theorem resource_kinds (w : World) (cs : List Nat) (s : Nat) : SameKinds w (w.resource cs s) := by
  intro m
  simp only [World.resource]
  constructor <;> (split <;> rfl)

theorem unlinkOut_kinds (w : World) (s c : Nat) : SameKinds w (w.unlinkOut s c) := by
  intro m
  simp only [World.unlinkOut]
  constructor <;> (split <;> rfl)

theorem retarget_kinds (w : World) (c t : Nat) : SameKinds w (w.retarget c t) := by
  intro m
  simp only [World.retarget]
  constructor <;> (split <;> rfl)

theorem resetName_kinds (w : World) (k : Nat) (s : String) (n : Nat) : SameKinds w (w.resetName k s n) := by
  intro m
  simp only [World.resetName]
  constructor <;> (split <;> rfl)

theorem deleteNode_kinds (w : World) (k n : Nat) : SameKinds w (w.deleteNode k n) := fun _ => ⟨rfl, rfl⟩

theorem rebindInput_kinds {w w' : World} {K S s i : Nat} (h : w.rebindInput K S s i = .ok w') : SameKinds w w' := by
  unfold World.rebindInput at h
  split at h
  · cases h
  · split at h
    · cases h; exact (resource_kinds _ _ _).trans (deleteNode_kinds _ _ _)
    · split at h
      · cases h; exact deleteNode_kinds _ _ _
      · cases h

theorem rebindOutput_kinds {w w' : World} {K S o t n : Nat} (h : w.rebindOutput K S o t = .ok (w', n)) : SameKinds w w' := by
  unfold World.rebindOutput at h
  split at h
  · cases h
  split at h
  · cases h
  split at h
  · cases h
  split at h
  · dsimp only at h
    split at h
    · split at h
      · cases h
      · split at h
        · split at h
          · cases h
          · simp only [Except.ok.injEq, Prod.mk.injEq] at h
            obtain ⟨rfl, -⟩ := h
            exact (unlinkOut_kinds _ _ _).trans (deleteNode_kinds _ _ _)
        · simp only [Except.ok.injEq, Prod.mk.injEq] at h
          obtain ⟨rfl, -⟩ := h
          exact (((unlinkOut_kinds _ _ _).trans (resource_kinds _ _ _)).trans (deleteNode_kinds _ _ _)).trans (deleteNode_kinds _ _ _)
    · split at h
      · simp only [Except.ok.injEq, Prod.mk.injEq] at h
        obtain ⟨rfl, -⟩ := h
        exact (retarget_kinds _ _ _).trans (deleteNode_kinds _ _ _)
      · cases h
  · cases h

theorem bindOne_kinds {w w' : World} {K S : Nat} {b : Nat × String} {n : Nat} (h : w.bindOne K S b = .ok (w', n)) : SameKinds w w' := by
  unfold World.bindOne at h
  split at h
  · cases h
  split at h
  · cases h
  dsimp only at h
  split at h
  · simp only [bind, Except.bind] at h
    split at h
    · cases h
    · rename_i w1 h1
      simp only [pure, Except.pure, Except.ok.injEq, Prod.mk.injEq] at h
      obtain ⟨rfl, -⟩ := h
      exact (resetName_kinds _ _ _ _).trans (rebindInput_kinds h1)
  · exact (resetName_kinds _ _ _ _).trans (rebindOutput_kinds h)

theorem bindAll_kinds {K S : Nat} : ∀ (bs : List (Nat × String)) {w w' : World} {hs : List Nat}, w.bindAll K S bs = .ok (w', hs) →
    SameKinds w w'
  | [], w, w', hs, h => by
    simp only [World.bindAll, Except.ok.injEq, Prod.mk.injEq] at h
    obtain ⟨rfl, -⟩ := h
    exact .refl _
  | b :: bs, w, w', hs, h => by
    simp only [World.bindAll, bind, Except.bind] at h
    split at h
    · cases h
    · rename_i p h1
      obtain ⟨w1, n⟩ := p
      dsimp only at h
      split at h
      · cases h
      · rename_i q h2
        obtain ⟨w2, ns⟩ := q
        simp only [pure, Except.pure, Except.ok.injEq, Prod.mk.injEq] at h
        obtain ⟨rfl, -⟩ := h
        exact (bindOne_kinds h1).trans (bindAll_kinds bs h2)

theorem transfer_kinds {w w' : World} (h : w.transfer = .ok w') : SameKinds w w' := by
  unfold World.transfer at h
  split at h
  · cases h
    intro m
    dsimp only
    constructor <;> (split <;> rfl)
  · cases h

theorem retOne_ok {e : Except Fault (World × Nat)} {w : World} {rs : List Nat} (h : retOne e = .ok (w, rs)) :
    ∃ n, e = .ok (w, n) ∧ rs = [n] := by
  unfold retOne at h
  split at h
  · simp only [Except.ok.injEq, Prod.mk.injEq] at h
    obtain ⟨rfl, rfl⟩ := h
    exact ⟨_, rfl, rfl⟩
  · cases h

theorem exec_kinds {F : FloatOps} {w w' : World} {cmd : Cmd} {rs : List Nat} (h : w.exec F cmd = .ok (w', rs)) (hk : KindInv w) :
    KindInv w' := by
  unfold World.exec at h
  split at h
  · cases h
  rename_i hvars
  clear hvars
  have hvk : ∀ b, varKind b = .stream ∨ varKind b = .scalar := by intro b; cases b <;> simp [varKind]
  have hC : ∀ {ty v}, retOne (w.createOrUseConst ty v) = .ok (w', rs) → KindInv w' := by
    intro ty v h
    obtain ⟨n, h1, -⟩ := retOne_ok h
    exact createOrUseConst_kinds h1 hk
  have hN : ∀ {k} {o : OpType} {data ty l}, KindOK o .stream → retOne (w.newOp k o data ty l) = .ok (w', rs) → KindInv w' := by
    intro k o data ty l ho h
    obtain ⟨n, h1, -⟩ := retOne_ok h
    exact newOp_kinds ho h1 hk
  cases cmd
  case input s n t =>
    simp only [Except.ok.injEq, Prod.mk.injEq] at h
    obtain ⟨rfl, -⟩ := h
    exact addNode_kinds (hvk _) hk
  case output s n t =>
    simp only [Except.ok.injEq, Prod.mk.injEq] at h
    obtain ⟨rfl, -⟩ := h
    exact addNode_kinds (hvk _) hk
  case newVar s t =>
    simp only [Except.ok.injEq, Prod.mk.injEq] at h
    obtain ⟨rfl, -⟩ := h
    exact addNode_kinds (hvk _) hk
  case const ty v => exact hC h
  case bin op a b =>
    dsimp only at h
    split at h
    · rename_i hb
      have ho : KindOK op .stream := by cases op <;> simp [isBinaryOp, OpType.isArith, OpType.isBitwise, OpType.isComparison] at hb <;> rfl
      split at h
      · split at h
        · exact hC h
        · cases h
        · cases h
      · exact hN ho h
      · exact hN ho h
    · cases h
  case un op a =>
    dsimp only at h
    split at h
    · rename_i hb
      have ho : KindOK op .stream := by rcases hb with rfl | rfl <;> rfl
      split at h
      · split at h
        · exact hC h
        · cases h
        · cases h
      · exact hN ho h
    · cases h
  case shift left a k =>
    dsimp only at h
    split at h
    · split at h
      · exact hC h
      · cases h
    · exact hN (by cases left <;> rfl) h
  case bits a i j =>
    dsimp only at h
    split at h
    · cases h
    · exact hN (by exact rfl) h
  case cat a b => exact hN (by exact rfl) h
  case cast a ty same =>
    dsimp only at h
    split at h
    · simp only [Except.ok.injEq, Prod.mk.injEq] at h
      obtain ⟨rfl, -⟩ := h
      exact hk
    · exact hN (by exact rfl) h
  case mux c args =>
    dsimp only at h
    split at h
    · cases h
    · exact hN (by exact rfl) h
  case offset a o =>
    dsimp only at h
    split at h
    · exact hN (by exact rfl) h
    · cases h
  case connect a b =>
    simp only [bind, Except.bind] at h
    split at h
    · cases h
    · rename_i w1 h1
      simp only [pure, Except.pure, Except.ok.injEq, Prod.mk.injEq] at h
      obtain ⟨rfl, -⟩ := h
      exact (addChannel_kinds h1).inv hk
  case beginInst =>
    simp only [Except.ok.injEq, Prod.mk.injEq] at h
    obtain ⟨rfl, -⟩ := h
    exact hk
  case endInst bs =>
    dsimp only at h
    split at h
    · simp only [bind, Except.bind] at h
      split at h
      · cases h
      · rename_i p h1
        obtain ⟨w1, ns⟩ := p
        dsimp only at h
        split at h
        · cases h
        · rename_i w2 h2
          simp only [pure, Except.pure, Except.ok.injEq, Prod.mk.injEq] at h
          obtain ⟨rfl, -⟩ := h
          exact ((bindAll_kinds _ h1).trans (transfer_kinds h2)).inv hk
    · cases h

/-- The kinds of variables in every reachable state. -/
theorem hist_kinds {F : FloatOps} {P : World → Cmd → Prop} {w : World} (h : Hist F P World.init w) : KindInv w := by
  generalize hw : World.init = w0 at h
  induction h with
  | nil => subst hw; intro m; exact .inl rfl
  | snoc c _ _ he ih => exact exec_kinds he ih

end Verif.Dfcxx
