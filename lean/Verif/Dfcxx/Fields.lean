import Verif.Dfcxx.Kinds
/-
The data of operation nodes fit in the fields of `NodeData`: shift distances in `uint8_t`, bit positions in `uint16_t`.
-/
namespace Verif.Dfcxx

/-- Shift distances and bit positions fit (/repo/src/model/dfcxx/include/dfcxx/node.h). -/
def DataOK : NodeData → Prop
  | .bitShift k => k < 2 ^ 8
  | .bitsRange l r => l < 2 ^ 16 ∧ r < 2 ^ 16
  | _ => True

def DataInv (w : World) : Prop := ∀ m, DataOK (w.node m).data

/-- The data of every node are the same. -/
def SameData (w w' : World) : Prop := ∀ m, (w'.node m).data = (w.node m).data

theorem SameData.refl (w : World) : SameData w w := fun _ => rfl

theorem SameData.trans {a b c : World} (h : SameData a b) (h' : SameData b c) : SameData a c := fun m => (h' m).trans (h m)

theorem SameData.inv {w w' : World} (h : SameData w w') (hk : DataInv w) : DataInv w' := fun m => by rw [h m]; exact hk m

theorem addNode_data {w : World} {k : Nat} {r : NodeRec} (hr : DataOK r.data) (hk : DataInv w) : DataInv (w.addNode k r) := by
  intro m
  by_cases h : m = w.next
  · simp [World.addNode, h, hr]
  · simp only [World.addNode, h, if_false]; exact hk m

theorem link_data (w : World) (s t i : Nat) (c : Bool) : SameData w (w.link s t i c) := by
  intro m
  simp only [World.link]
  split <;> split <;> rfl

theorem addChannel_data {w w' : World} {k s t i : Nat} {c : Bool} (h : w.addChannel k s t i c = .ok w') : SameData w w' := by
  unfold World.addChannel at h
  split at h
  · split at h
    · cases h; exact link_data _ _ _ _ _
    · cases h
  · cases h

theorem addOperands_data {k t : Nat} : ∀ (l : List Nat) (i : Nat) {w w' : World}, w.addOperands k t i l = .ok w' → SameData w w'
  | [], _, w, w', h => by cases h; exact .refl _
  | a :: l, i, w, w', h => by
    simp only [World.addOperands, bind, Except.bind] at h
    split at h
    · cases h
    · rename_i w1 h1
      exact (addChannel_data h1).trans (addOperands_data l _ h)

theorem newOp_data {w w' : World} {k n : Nat} {op : OpType} {data : NodeData} {ty : DFType} {l : List Nat} (hop : DataOK data)
    (h : w.newOp k op data ty l = .ok (w', n)) (hk : DataInv w) : DataInv w' := by
  unfold World.newOp at h
  split at h
  · cases h
  · simp only [bind, Except.bind] at h
    split at h
    · cases h
    · rename_i w1 h1
      simp only [pure, Except.pure, Except.ok.injEq, Prod.mk.injEq] at h
      obtain ⟨rfl, -⟩ := h
      exact (addOperands_data _ _ h1).inv (addNode_data hop hk)

theorem createOrUseConst_data {w w' : World} {ty : DFType} {v : Word} {n : Nat} (h : w.createOrUseConst ty v = .ok (w', n))
    (hk : DataInv w) : DataInv w' := by
  unfold World.createOrUseConst at h
  split at h
  · cases h
  · split at h <;> (simp only [Except.ok.injEq, Prod.mk.injEq] at h; obtain ⟨rfl, -⟩ := h)
    · exact hk
    · exact addNode_data trivial hk

theorem resource_data (w : World) (cs : List Nat) (s : Nat) : SameData w (w.resource cs s) := by
  intro m
  simp only [World.resource]
  split <;> rfl

theorem unlinkOut_data (w : World) (s c : Nat) : SameData w (w.unlinkOut s c) := by
  intro m
  simp only [World.unlinkOut]
  split <;> rfl

theorem retarget_data (w : World) (c t : Nat) : SameData w (w.retarget c t) := by
  intro m
  simp only [World.retarget]
  split <;> rfl

theorem resetName_data (w : World) (k : Nat) (s : String) (n : Nat) : SameData w (w.resetName k s n) := by
  intro m
  simp only [World.resetName]
  split <;> rfl

theorem deleteNode_data (w : World) (k n : Nat) : SameData w (w.deleteNode k n) := fun _ => rfl

theorem rebindInput_data {w w' : World} {K S s i : Nat} (h : w.rebindInput K S s i = .ok w') : SameData w w' := by
  unfold World.rebindInput at h
  split at h
  · cases h
  · split at h
    · cases h; exact (resource_data _ _ _).trans (deleteNode_data _ _ _)
    · split at h
      · cases h; exact deleteNode_data _ _ _
      · cases h

theorem rebindOutput_data {w w' : World} {K S o t n : Nat} (h : w.rebindOutput K S o t = .ok (w', n)) : SameData w w' := by
  unfold World.rebindOutput at h
  split at h
  · cases h
  split at h
  · cases h
  split at h
  · cases h
  split at h
  · dsimp only at h
    split at h
    · split at h
      · cases h
      · split at h
        · split at h
          · cases h
          · simp only [Except.ok.injEq, Prod.mk.injEq] at h
            obtain ⟨rfl, -⟩ := h
            exact (unlinkOut_data _ _ _).trans (deleteNode_data _ _ _)
        · simp only [Except.ok.injEq, Prod.mk.injEq] at h
          obtain ⟨rfl, -⟩ := h
          exact (((unlinkOut_data _ _ _).trans (resource_data _ _ _)).trans (deleteNode_data _ _ _)).trans (deleteNode_data _ _ _)
    · split at h
      · simp only [Except.ok.injEq, Prod.mk.injEq] at h
        obtain ⟨rfl, -⟩ := h
        exact (retarget_data _ _ _).trans (deleteNode_data _ _ _)
      · cases h
  · cases h

theorem bindOne_data {w w' : World} {K S : Nat} {b : Nat × String} {n : Nat} (h : w.bindOne K S b = .ok (w', n)) : SameData w w' := by
  unfold World.bindOne at h
  split at h
  · cases h
  split at h
  · cases h
  dsimp only at h
  split at h
  · simp only [bind, Except.bind] at h
    split at h
    · cases h
    · rename_i w1 h1
      simp only [pure, Except.pure, Except.ok.injEq, Prod.mk.injEq] at h
      obtain ⟨rfl, -⟩ := h
      exact (resetName_data _ _ _ _).trans (rebindInput_data h1)
  · exact (resetName_data _ _ _ _).trans (rebindOutput_data h)

theorem bindAll_data {K S : Nat} : ∀ (bs : List (Nat × String)) {w w' : World} {hs : List Nat}, w.bindAll K S bs = .ok (w', hs) →
    SameData w w'
  | [], w, w', hs, h => by
    simp only [World.bindAll, Except.ok.injEq, Prod.mk.injEq] at h
    obtain ⟨rfl, -⟩ := h
    exact .refl _
  | b :: bs, w, w', hs, h => by
    simp only [World.bindAll, bind, Except.bind] at h
    split at h
    · cases h
    · rename_i p h1
      obtain ⟨w1, n⟩ := p
      dsimp only at h
      split at h
      · cases h
      · rename_i q h2
        obtain ⟨w2, ns⟩ := q
        simp only [pure, Except.pure, Except.ok.injEq, Prod.mk.injEq] at h
        obtain ⟨rfl, -⟩ := h
        exact (bindOne_data h1).trans (bindAll_data bs h2)

theorem transfer_data {w w' : World} (h : w.transfer = .ok w') : SameData w w' := by
  unfold World.transfer at h
  split at h
  · cases h
    intro m
    dsimp only
    split <;> rfl
  · cases h

theorem exec_data {F : FloatOps} {w w' : World} {cmd : Cmd} {rs : List Nat} (h : w.exec F cmd = .ok (w', rs)) (hk : DataInv w) :
    DataInv w' := by
  unfold World.exec at h
  split at h
  · cases h
  rename_i hvars
  clear hvars
  have hC : ∀ {ty v}, retOne (w.createOrUseConst ty v) = .ok (w', rs) → DataInv w' := by
    intro ty v h
    obtain ⟨n, h1, -⟩ := retOne_ok h
    exact createOrUseConst_data h1 hk
  have hN : ∀ {k} {o : OpType} {data ty l}, retOne (w.newOp k o data ty l) = .ok (w', rs) → DataOK data → DataInv w' := by
    intro k o data ty l h ho
    obtain ⟨n, h1, -⟩ := retOne_ok h
    exact newOp_data ho h1 hk
  cases cmd
  case input s n t =>
    simp only [Except.ok.injEq, Prod.mk.injEq] at h
    obtain ⟨rfl, -⟩ := h
    exact addNode_data trivial hk
  case output s n t =>
    simp only [Except.ok.injEq, Prod.mk.injEq] at h
    obtain ⟨rfl, -⟩ := h
    exact addNode_data trivial hk
  case newVar s t =>
    simp only [Except.ok.injEq, Prod.mk.injEq] at h
    obtain ⟨rfl, -⟩ := h
    exact addNode_data trivial hk
  case const ty v => exact hC h
  case bin op a b =>
    dsimp only at h
    split at h
    · rename_i hb
      split at h
      · split at h
        · exact hC h
        · cases h
        · cases h
      · exact hN h trivial
      · exact hN h trivial
    · cases h
  case un op a =>
    dsimp only at h
    split at h
    · rename_i hb
      split at h
      · split at h
        · exact hC h
        · cases h
        · cases h
      · exact hN h trivial
    · cases h
  case shift left a k =>
    dsimp only at h
    split at h
    · split at h
      · exact hC h
      · cases h
    · exact hN h (show u8 k < 2 ^ 8 from Nat.mod_lt _ (by decide))
  case bits a i j =>
    dsimp only at h
    split at h
    · cases h
    · rename_i l r ty hb
      refine hN h ?_
      have h1 : u16 i < 2 ^ 16 := Nat.mod_lt _ (by decide)
      have h2 : u16 j < 2 ^ 16 := Nat.mod_lt _ (by decide)
      have key : ∀ {f g t : Nat}, f < 2 ^ 16 → g < 2 ^ 16 → bitsRange f g t = some (l, r, ty) → l < 2 ^ 16 ∧ r < 2 ^ 16 := by
        intro f g t hf hg hb
        unfold bitsRange at hb
        by_cases e1 : f > g
        · by_cases e2 : t ≤ f
          · simp [e1, e2] at hb
          · simp only [e1, e2, if_true, if_false, Option.some.injEq, Prod.mk.injEq] at hb
            omega
        · by_cases e2 : t ≤ g
          · simp [e1, e2] at hb
          · simp only [e1, e2, if_false, Option.some.injEq, Prod.mk.injEq] at hb
            omega
      exact key h1 h2 hb
  case cat a b => exact hN h trivial
  case cast a ty same =>
    dsimp only at h
    split at h
    · simp only [Except.ok.injEq, Prod.mk.injEq] at h
      obtain ⟨rfl, -⟩ := h
      exact hk
    · exact hN h trivial
  case mux c args =>
    dsimp only at h
    split at h
    · cases h
    · exact hN h trivial
  case offset a o =>
    dsimp only at h
    split at h
    · exact hN h trivial
    · cases h
  case connect a b =>
    simp only [bind, Except.bind] at h
    split at h
    · cases h
    · rename_i w1 h1
      simp only [pure, Except.pure, Except.ok.injEq, Prod.mk.injEq] at h
      obtain ⟨rfl, -⟩ := h
      exact (addChannel_data h1).inv hk
  case beginInst =>
    simp only [Except.ok.injEq, Prod.mk.injEq] at h
    obtain ⟨rfl, -⟩ := h
    exact hk
  case endInst bs =>
    dsimp only at h
    split at h
    · simp only [bind, Except.bind] at h
      split at h
      · cases h
      · rename_i p h1
        obtain ⟨w1, ns⟩ := p
        dsimp only at h
        split at h
        · cases h
        · rename_i w2 h2
          simp only [pure, Except.pure, Except.ok.injEq, Prod.mk.injEq] at h
          obtain ⟨rfl, -⟩ := h
          exact ((bindAll_data _ h1).trans (transfer_data h2)).inv hk
    · cases h

/-- In every reachable state. -/
theorem hist_data {F : FloatOps} {P : World → Cmd → Prop} {w : World} (h : Hist F P World.init w) : DataInv w := by
  generalize hw : World.init = w0 at h
  induction h with
  | nil => subst hw; intro m; trivial
  | snoc c _ _ he ih => exact exec_data he ih

end Verif.Dfcxx
