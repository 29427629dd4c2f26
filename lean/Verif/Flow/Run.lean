import Verif.Flow.Prims
/-
The converted kernel has runs, and every run of it is a run of the scheduled netlist.
-/
namespace Verif.Flow
open Verif.Dfcxx Verif.Hw Verif.Sched

/-! ### No operand is an erased operation -/

def NoDangling (X : Prog) : Prop := ∀ v < X.size, ∀ r ∈ (X.defn v).refs, X.defn r ≠ .erased

theorem insertBuffer_noErased {P P' : Prog} {c : Chan} {b : Int} (h : insertBuffer P c b = .ok P')
    (hP : ∀ i < P.size, P.defn i ≠ .erased) : ∀ i < P'.size, P'.defn i ≠ .erased := by
  unfold insertBuffer at h
  split at h
  · cases h
  · split at h
    · split at h
      · split at h
        · cases h
          intro i hi
          simp only [Prog.set] at hi ⊢
          split
          · simp
          · split
            · simp
            · exact hP i (by omega)
        · cases h
      · cases h
    · split at h
      · cases h
      · split at h
        · cases h
          intro i hi
          simp only [Prog.set] at hi ⊢
          split
          · simp
          · split
            · simp
            · exact hP i (by omega)
        · cases h

theorem insertBuffers_noErased : ∀ (bs : List (Chan × Int)) {P P' : Prog}, insertBuffers P bs = .ok P' →
    (∀ i < P.size, P.defn i ≠ .erased) → ∀ i < P'.size, P'.defn i ≠ .erased := by
  intro bs
  induction bs with
  | nil => intro P P' h hP; simp [insertBuffers] at h; subst h; exact hP
  | cons p bs ih =>
    intro P P' h hP
    simp only [insertBuffers] at h
    split at h
    · cases h
    · rename_i P1 h1
      exact ih h (insertBuffer_noErased h1 hP)

theorem subst_erased {d : Def} {p s : Nat} (h : d.subst p s = .erased) : d = .erased := by
  cases d with
  | output o => cases o <;> simp [Def.subst] at h
  | _ => simp [Def.subst] at h ⊢

theorem eraseOne_noDangling {X : Prog} (h : NoDangling X) (hr : Ranked X) {p : Nat} (hp : p < X.size) : NoDangling (eraseOne X p) := by
  unfold eraseOne
  split
  · rename_i s k hd
    obtain ⟨r, hr⟩ := hr
    have hsp : s ≠ p := by
      intro e
      have := (hr p hp s (by rw [hd]; simp [Def.refs])).2
      rw [e] at this; omega
    have hse : X.defn s ≠ .erased := h p hp s (by rw [hd]; simp [Def.refs])
    intro v hv u hu
    simp only at hv hu ⊢
    split at hu
    · simp [Def.refs] at hu
    · obtain ⟨w, hw, he⟩ := refs_subst hu
      have hwe := h v hv w hw
      split at he
      · subst he
        rw [if_neg hsp]
        exact fun e => hse (subst_erased e)
      · rename_i hwp
        subst he
        rw [if_neg hwp]
        exact fun e => hwe (subst_erased e)
  · exact h

theorem eraseFold_noDangling : ∀ (l : List Nat) {X : Prog}, NoDangling X → Ranked X → (∀ p ∈ l, p < X.size) →
    NoDangling (l.foldl eraseOne X) := by
  intro l
  induction l with
  | nil => intro X h _ _; exact h
  | cons p l ih =>
    intro X h hr hl
    exact ih (eraseOne_noDangling h hr (hl p (by simp))) (eraseOne_ranked hr (hl p (by simp)))
      (fun q hq => by rw [eraseOne_size]; exact hl q (by simp [hq]))

theorem applySchedule_noDangling {P P' : Prog} (hP : WF P) {bs : List (Chan × Int)}
    (hbs : ∀ p ∈ bs, p.1 ∈ channels P) (h : applySchedule P bs = .ok P') : NoDangling P' := by
  unfold applySchedule at h
  split at h
  · cases h
  · rename_i P1 h1
    cases h
    have hlt : ∀ p ∈ bs, p.1.tgt < P.size := fun p hp => (chan_lt hP (hbs p hp)).2
    obtain ⟨h2, h3⟩ := insertBuffers_ranked bs hP.ranked hlt h1
    refine eraseFold_noDangling _ ?_ h2 (fun p hp => by have := List.mem_range.1 hp; omega)
    intro v hv r hr
    obtain ⟨rk, hrk⟩ := h2
    exact insertBuffers_noErased bs h1 (fun i hi => (hP.fresh i hi).2) r (hrk v hv r hr).1

/-! ### A cell depends on its operands only -/

theorem cellOut_congr (ops : List OpInfo) (X : Prog) (mods : List (Nat × Module)) (v : Nat) (port : String → Nat → Nat)
    (oob : FVal → List FVal → FVal) (reg : Nat → Nat) {σ τ : Nat → Nat → FVal} (h : ∀ s ∈ (X.defn v).refs, σ s = τ s) (t : Nat) :
    cellOut port oob reg (cellOf ops X mods v) σ t = cellOut port oob reg (cellOf ops X mods v) τ t := by
  unfold cellOf
  cases hd : X.defn v with
  | stream => simp only; split <;> rfl
  | scalar => simp only; split <;> rfl
  | const => simp only; split <;> rfl
  | erased => rfl
  | offset s k => rfl
  | latency s n =>
    have hs := h s (by rw [hd]; simp [Def.refs])
    simp only
    split
    · simp [cellOut, hs]
    · rfl
  | output o =>
    simp only
    split
    · cases o with
      | none => rfl
      | some s => simp only [cellOut]; rw [h s (by rw [hd]; simp [Def.refs])]
    · rfl
  | node args =>
    have ha : ∀ s ∈ args, σ s = τ s := fun s hs => h s (by rw [hd]; exact hs)
    simp only
    split
    · rfl
    · split
      all_goals try simp only [List.mem_cons, List.not_mem_nil, or_false, forall_eq_or_imp, forall_eq] at ha
      case h_7 =>
        obtain ⟨hc, hv⟩ := ha
        simp only [cellOut, hc]
        rw [List.map_congr_left (fun w hw => congrFun (hv w hw) t)]
      case h_10 =>
        split
        · simp only [cellOut]
          rw [List.map_congr_left ha]
        · rfl
      all_goals first
        | (simp only [cellOut, ha.1, ha.2]; done)
        | (simp only [cellOut, ha]; done)

/-! ### Runs -/

section
variable {V : Nat → NodeV} {order : List Nat} {lat : Nat → Int} {X : Prog} {blk : List Nat} {port : String → Nat → Nat}
  {oob : FVal → List FVal → FVal}

theorem circuit_gone {ops : List OpInfo} (hd : X.defn v = .erased) : circuitOf ops X lat blk v = .gone := by
  simp [circuitOf, cellOf, hd]

/-- In a run, every wire carries values of its type. -/
theorem Ctx.run_fits (C : Ctx V order lat X blk port oob) (hr : Ranked X) (hnd : NoDangling X) {reg : Nat → Nat → Nat}
    {σ : Nat → Nat → FVal} (hrun : CircuitRun (circuitOf (opsOf (block V order)) X lat blk) X.size port oob reg σ) :
    ∀ v < X.size, X.defn v ≠ .erased → Operands V order X σ v ∧
      ∀ t, Fits (valTy (opTy (opsOf (block V order))) X v) (σ v t) ∧
        WireSpec (kernelInterp V order port oob) lat X σ v t (σ v t) := by
  obtain ⟨r, hr⟩ := hr
  have key : ∀ m v, r v ≤ m → v < X.size → X.defn v ≠ .erased → Operands V order X σ v ∧
      ∀ t, Fits (valTy (opTy (opsOf (block V order))) X v) (σ v t) ∧
        WireSpec (kernelInterp V order port oob) lat X σ v t (σ v t) := by
    intro m
    induction m using Nat.strongRecOn with
    | _ m ih =>
      intro v hm hv hne
      have hop : Operands V order X σ v := by
        intro s hs t
        obtain ⟨h1, h2⟩ := hr v hv s hs
        exact ((ih (r s) (by omega) s (Nat.le_refl _) h1 (hnd v hv s hs)).2 t).1
      refine ⟨hop, fun t => ?_⟩
      obtain ⟨x, g1, g2, g3⟩ := C.step hv hne (reg v) σ hop t
      have hng : circuitOf (opsOf (block V order)) X lat blk v ≠ .gone := by
        intro e; rw [e] at g1; simp [cellOut] at g1
      have := hrun v hv hng t
      rw [g1] at this
      cases this
      exact ⟨g2, g3⟩
  intro v hv hne
  exact key (r v) v (Nat.le_refl _) hv hne

/-- Every run of the circuit is a run of the scheduled netlist. -/
theorem Ctx.run_netlist (C : Ctx V order lat X blk port oob) (hr : Ranked X) (hnd : NoDangling X) {reg : Nat → Nat → Nat}
    {σ : Nat → Nat → FVal} (hrun : CircuitRun (circuitOf (opsOf (block V order)) X lat blk) X.size port oob reg σ) :
    HwRun X (kernelInterp V order port oob) lat (fun v c => (σ v c.toNat).n) := by
  intro v hv
  by_cases hne : X.defn v = .erased
  · rw [hne]; trivial
  obtain ⟨-, hw⟩ := C.run_fits hr hnd hrun v hv hne
  have hw := fun t => (hw t).2
  simp only [WireSpec] at hw
  cases hd : X.defn v with
  | stream =>
    rw [hd] at hw
    intro c hc
    have := hw c.toNat
    simp only at this ⊢
    rw [this, Int.toNat_of_nonneg hc]
  | scalar => rw [hd] at hw; intro c hc; exact hw c.toNat
  | const => rw [hd] at hw; intro c hc; exact hw c.toNat
  | erased => trivial
  | offset s k => exact absurd hd (C.noOff v hv s k)
  | output o => cases o with
    | none => trivial
    | some s => rw [hd] at hw; intro c hc; exact hw c.toNat
  | node args =>
    rw [hd] at hw
    intro c hc
    have h0 := C.lats.nonneg v
    exact hw c.toNat (c - lat v).toNat (by omega)
  | latency s n =>
    rw [hd] at hw
    intro c hc
    have h0 := C.buffers_positive hv hd
    exact hw c.toNat (c - n).toNat (by omega)

/-- Values of the wires, computed `k` levels deep. -/
def iterCircuit (cells : Nat → Cell) (port : String → Nat → Nat) (oob : FVal → List FVal → FVal) (reg : Nat → Nat → Nat) :
    Nat → Nat → Nat → FVal
  | 0 => fun _ _ => ⟨false, 0, 0⟩
  | k + 1 => fun v t => (cellOut port oob (reg v) (cells v) (iterCircuit cells port oob reg k) t).getD ⟨false, 0, 0⟩

/-- For any input streams and any power-up register contents the circuit has a run. -/
theorem Ctx.run_exists (C : Ctx V order lat X blk port oob) (hr : Ranked X) (hnd : NoDangling X) (reg : Nat → Nat → Nat) :
    ∃ σ, CircuitRun (circuitOf (opsOf (block V order)) X lat blk) X.size port oob reg σ := by
  obtain ⟨r, hr⟩ := hr
  let cells := circuitOf (opsOf (block V order)) X lat blk
  let it := iterCircuit cells port oob reg
  have congr : ∀ v (σ τ : Nat → Nat → FVal), (∀ s ∈ (X.defn v).refs, σ s = τ s) →
      ∀ t, cellOut port oob (reg v) (cells v) σ t = cellOut port oob (reg v) (cells v) τ t :=
    fun v σ τ h t => cellOut_congr _ X _ v port oob (reg v) h t
  have stable : ∀ m v, r v ≤ m → v < X.size → ∀ k, m < k → it k v = it (r v + 1) v := by
    intro m
    induction m using Nat.strongRecOn with
    | _ m ih =>
      intro v hm hv k hk
      obtain ⟨k', rfl⟩ : ∃ k', k = k' + 1 := ⟨k - 1, by omega⟩
      funext t
      show (cellOut port oob (reg v) (cells v) (it k') t).getD _ = (cellOut port oob (reg v) (cells v) (it (r v)) t).getD _
      rw [congr v (it k') (it (r v))]
      intro s hs
      obtain ⟨h1, h2⟩ := hr v hv s hs
      rw [ih (r s) (by omega) s (Nat.le_refl _) h1 k' (by omega), ih (r s) (by omega) s (Nat.le_refl _) h1 (r v) h2]
  let σ : Nat → Nat → FVal := fun v t => it (r v + 1) v t
  have he : ∀ v < X.size, ∀ t, σ v t = (cellOut port oob (reg v) (cells v) σ t).getD ⟨false, 0, 0⟩ := by
    intro v hv t
    show (cellOut port oob (reg v) (cells v) (it (r v)) t).getD _ = _
    rw [congr v (it (r v)) σ]
    intro s hs
    obtain ⟨h1, h2⟩ := hr v hv s hs
    exact stable (r s) s (Nat.le_refl _) h1 (r v) h2
  have key : ∀ m v, r v ≤ m → v < X.size → X.defn v ≠ .erased →
      ∀ t, cellOut port oob (reg v) (cells v) σ t = some (σ v t) ∧ Fits (valTy (opTy (opsOf (block V order))) X v) (σ v t) := by
    intro m
    induction m using Nat.strongRecOn with
    | _ m ih =>
      intro v hm hv hne t
      have hop : Operands V order X σ v := by
        intro s hs t
        obtain ⟨h1, h2⟩ := hr v hv s hs
        exact (ih (r s) (by omega) s (Nat.le_refl _) h1 (hnd v hv s hs) t).2
      obtain ⟨x, g1, g2, -⟩ := C.step hv hne (reg v) σ hop t
      have : σ v t = x := by rw [he v hv t]; show Option.getD (cellOut _ _ _ _ _ _) _ = _; rw [g1]; rfl
      rw [this]; exact ⟨g1, g2⟩
  refine ⟨σ, ?_⟩
  intro v hv hng t
  by_cases hne : X.defn v = .erased
  · exact absurd (circuit_gone hne) hng
  · exact (key (r v) v (Nat.le_refl _) hv hne t).1

end

end Verif.Flow
