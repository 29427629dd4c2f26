import Verif.Sched.LpProps
/-
Every scheduled netlist has a run: the hypothesis `HwRun` of the pipeline theorems is never vacuous.
-/
namespace Verif.Sched
open Verif.Dfcxx (Fault)

/-- No combinational cycles: operands have smaller rank. -/
def Ranked (P : Prog) : Prop := ∃ r : Nat → Nat, ∀ v < P.size, ∀ s ∈ (P.defn v).refs, s < P.size ∧ r s < r v

theorem WF.ranked {P : Prog} (hP : WF P) : Ranked P :=
  ⟨id, fun v hv s hs => by have := hP.refs v hv s hs; exact ⟨by omega, this⟩⟩

/-- One evaluation step from earlier wire values. -/
def stepWire {α : Type} (P : Prog) (I : Interp α) (lat : Nat → Int) (σ : Nat → Int → α) (v : Nat) (c : Int) : α :=
  match P.defn v with
  | .stream => I.inp v c
  | .scalar | .const => I.cst v
  | .output (some s) => σ s c
  | .node args => I.fn v (args.map fun s => σ s (c - lat v))
  | .latency s n => σ s (c - n)
  | .offset s _ => σ s c
  | _ => I.cst v

def iterWire {α : Type} (P : Prog) (I : Interp α) (lat : Nat → Int) : Nat → Nat → Int → α
  | 0 => fun v _ => I.cst v
  | k + 1 => fun v c => stepWire P I lat (iterWire P I lat k) v c

theorem stepWire_congr {α : Type} {P : Prog} {I : Interp α} {lat : Nat → Int} {σ τ : Nat → Int → α} {v : Nat}
    (h : ∀ s ∈ (P.defn v).refs, σ s = τ s) : stepWire P I lat σ v = stepWire P I lat τ v := by
  funext c
  unfold stepWire
  cases hd : P.defn v with
  | output o =>
    cases o with
    | none => rfl
    | some s => simp only; rw [h s (by rw [hd]; simp [Def.refs])]
  | node args =>
    simp only
    congr 1
    refine List.map_congr_left fun s hs => ?_
    rw [h s (by rw [hd]; exact hs)]
  | latency s n => simp only; rw [h s (by rw [hd]; simp [Def.refs])]
  | offset s n => simp only; rw [h s (by rw [hd]; simp [Def.refs])]
  | _ => rfl

theorem Ranked.run_exists {P : Prog} (h : Ranked P) {α : Type} (I : Interp α) (lat : Nat → Int) :
    ∃ σ : Nat → Int → α, HwRun P I lat σ := by
  obtain ⟨r, hr⟩ := h
  have stable : ∀ m v, r v ≤ m → v < P.size → ∀ k, m < k → iterWire P I lat k v = iterWire P I lat (r v + 1) v := by
    intro m
    induction m using Nat.strongRecOn with
    | _ m ih =>
      intro v hm hv k hk
      obtain ⟨k', rfl⟩ : ∃ k', k = k' + 1 := ⟨k - 1, by omega⟩
      show stepWire P I lat (iterWire P I lat k') v = stepWire P I lat (iterWire P I lat (r v)) v
      refine stepWire_congr ?_
      intro s hs
      obtain ⟨h1, h2⟩ := hr v hv s hs
      rw [ih (r s) (by omega) s (Nat.le_refl _) h1 k' (by omega), ih (r s) (by omega) s (Nat.le_refl _) h1 (r v) h2]
  refine ⟨fun v c => iterWire P I lat (r v + 1) v c, ?_⟩
  intro v hv
  have he : iterWire P I lat (r v + 1) v = stepWire P I lat (fun s c => iterWire P I lat (r s + 1) s c) v := by
    show stepWire P I lat (iterWire P I lat (r v)) v = _
    refine stepWire_congr ?_
    intro s hs
    obtain ⟨h1, h2⟩ := hr v hv s hs
    exact stable (r s) s (Nat.le_refl _) h1 (r v) h2
  have he' := fun c => congrFun he c
  simp only [stepWire] at he'
  cases hd : P.defn v with
  | output o =>
    cases o with
    | none => trivial
    | some s => rw [hd] at he'; intro c _; exact he' c
  | erased => trivial
  | _ => rw [hd] at he'; intro c _; exact he' c

theorem insertBuffer_ranked {P P2 : Prog} {c : Chan} {b : Int} (h : Ranked P) (hc : c.tgt < P.size)
    (he : insertBuffer P c b = .ok P2) : Ranked P2 ∧ P.size ≤ P2.size := by
  obtain ⟨r, hr⟩ := h
  -- both successful branches put a fresh latency between `s` and `c.tgt`
  have key : ∀ (s : Nat) (d : Def), s ∈ (P.defn c.tgt).refs →
      (∀ u ∈ d.refs, u = P.size ∨ u ∈ (P.defn c.tgt).refs) →
      Ranked ⟨P.size + 1, ((P.set c.tgt d).set P.size (.latency s b)).defn⟩ := by
    intro s d hs hd
    obtain ⟨hs1, hs2⟩ := hr c.tgt hc s hs
    refine ⟨fun v => if v = P.size then 2 * r s + 1 else 2 * r v, ?_⟩
    intro v hv u hu
    simp only [Prog.set] at hv hu ⊢
    by_cases hvs : v = P.size
    · subst hvs
      simp [Def.refs] at hu; subst hu
      have : u ≠ P.size := by omega
      simp [this]; omega
    · rw [if_neg hvs] at hu ⊢
      by_cases hvt : v = c.tgt
      · subst hvt
        simp at hu
        rcases hd u hu with rfl | hu'
        · simp; omega
        · obtain ⟨g1, g2⟩ := hr c.tgt hc u hu'
          rw [if_neg (by omega)]; omega
      · rw [if_neg hvt] at hu
        obtain ⟨g1, g2⟩ := hr v (by omega) u hu
        rw [if_neg (by omega)]; omega
  unfold insertBuffer at he
  split at he
  · cases he
  · split at he
    · split at he
      · rename_i args hd
        split at he
        · rename_i v hv
          cases he
          refine ⟨key v (.node (args.set c.valInd.toNat P.size)) ?_ ?_, Nat.le_succ _⟩
          · rw [hd]; exact List.mem_of_getElem? hv
          · intro u hu
            rw [hd]
            rcases List.mem_or_eq_of_mem_set hu with h | h
            · exact .inr h
            · exact .inl h
        · cases he
      · cases he
    · split at he
      · cases he
      · split at he
        · rename_i s hd
          cases he
          refine ⟨key s (.output (some P.size)) (by rw [hd]; simp [Def.refs]) ?_, Nat.le_succ _⟩
          intro u hu; simp [Def.refs] at hu; exact .inl hu
        · cases he

theorem insertBuffers_ranked : ∀ (bs : List (Chan × Int)) {P P2 : Prog}, Ranked P → (∀ p ∈ bs, p.1.tgt < P.size) →
    insertBuffers P bs = .ok P2 → Ranked P2 ∧ P.size ≤ P2.size := by
  intro bs
  induction bs with
  | nil => intro P P2 h _ he; simp only [insertBuffers] at he; cases he; exact ⟨h, Nat.le_refl _⟩
  | cons p bs ih =>
    intro P P2 h hb he
    simp only [insertBuffers] at he
    split at he
    · cases he
    · rename_i P1 h1
      obtain ⟨h2, h3⟩ := insertBuffer_ranked h (hb p (by simp)) h1
      obtain ⟨h4, h5⟩ := ih h2 (fun q hq => by have := hb q (by simp [hq]); omega) he
      exact ⟨h4, by omega⟩

theorem eraseOne_ranked {P : Prog} (h : Ranked P) {p : Nat} (hp : p < P.size) : Ranked (eraseOne P p) := by
  obtain ⟨r, hr⟩ := h
  unfold eraseOne
  split
  · rename_i s k hd
    obtain ⟨g1, g2⟩ := hr p hp s (by rw [hd]; simp [Def.refs])
    refine ⟨r, ?_⟩
    intro v hv u hu
    simp only at hv hu
    split at hu
    · simp [Def.refs] at hu
    · have : ∃ w ∈ (P.defn v).refs, u = if w = p then s else w := by
        cases hdv : P.defn v with
        | output o =>
          rw [hdv] at hu
          cases o with
          | none => simp [Def.subst, Def.refs] at hu
          | some w => simp [Def.subst, Def.refs] at hu; exact ⟨w, by simp [Def.refs], hu⟩
        | node args =>
          rw [hdv] at hu
          simp only [Def.subst, Def.refs, List.mem_map] at hu
          obtain ⟨w, hw, he⟩ := hu
          exact ⟨w, hw, he.symm⟩
        | offset w m => rw [hdv] at hu; simp [Def.subst, Def.refs] at hu; exact ⟨w, by simp [Def.refs], hu⟩
        | latency w m => rw [hdv] at hu; simp [Def.subst, Def.refs] at hu; exact ⟨w, by simp [Def.refs], hu⟩
        | _ => rw [hdv] at hu; simp [Def.subst, Def.refs] at hu
      obtain ⟨w, hw, he⟩ := this
      obtain ⟨g3, g4⟩ := hr v hv w hw
      split at he
      · rename_i hwp; subst hwp; subst he; exact ⟨g1, by omega⟩
      · subst he; exact ⟨g3, g4⟩
  · exact ⟨r, hr⟩

theorem eraseFold_ranked : ∀ (l : List Nat) {P : Prog}, Ranked P → (∀ p ∈ l, p < P.size) → Ranked (l.foldl eraseOne P) := by
  intro l
  induction l with
  | nil => intro P h _; exact h
  | cons p l ih =>
    intro P h hl
    exact ih (eraseOne_ranked h (hl p (by simp))) (fun q hq => by rw [eraseOne_size]; exact hl q (by simp [hq]))

/-- The netlists that scheduling produces are free of combinational cycles, so for every interpretation (and every
latency assignment) they have a run. -/
theorem scheduled_netlist_runs {P P' : Prog} (hP : WF P) {bs : List (Chan × Int)}
    (hbs : ∀ p ∈ bs, p.1 ∈ channels P) (h : applySchedule P bs = .ok P') {α : Type} (I : Interp α) (lat : Nat → Int) :
    ∃ σ : Nat → Int → α, HwRun P' I lat σ := by
  unfold applySchedule at h
  split at h
  · cases h
  · rename_i P1 h1
    cases h
    obtain ⟨h2, h3⟩ := insertBuffers_ranked bs hP.ranked (fun p hp => (chan_lt hP (hbs p hp)).2) h1
    exact (eraseFold_ranked _ h2 (fun p hp => by have := List.mem_range.1 hp; omega)).run_exists I lat

end Verif.Sched
