import Verif.Flow.Denote
/-
Scheduling keeps the shape of the block and the types of all operands.
-/
namespace Verif.Flow
open Verif.Dfcxx Verif.Sched

/-- Buffers refer to smaller numbers. -/
def LatDown (X : Prog) : Prop := ∀ v s n, X.defn v = .latency s n → s < v

theorem valTyF_stable {α : Type} {base : Nat → α} {X : Prog} (h : LatDown X) : ∀ (v f g : Nat), v < f → v < g →
    valTyF base X f v = valTyF base X g v := by
  intro v
  induction v using Nat.strongRecOn with
  | _ v ih =>
    intro f g hf hg
    obtain ⟨f', rfl⟩ : ∃ f', f = f' + 1 := ⟨f - 1, by omega⟩
    obtain ⟨g', rfl⟩ : ∃ g', g = g' + 1 := ⟨g - 1, by omega⟩
    simp only [valTyF]
    cases hd : X.defn v with
    | latency s n =>
      have := h v s n hd
      exact ih s this f' g' (by omega) (by omega)
    | _ => rfl

theorem valTy_latency {α : Type} {base : Nat → α} {X : Prog} (h : LatDown X) {v s : Nat} {n : Int} (hd : X.defn v = .latency s n) :
    valTy base X v = valTy base X s := by
  have hs := h v s n hd
  show valTyF base X (v + 1) v = _
  simp only [valTyF, hd]
  exact valTyF_stable h s v (s + 1) hs (by omega)

theorem valTy_other {α : Type} {base : Nat → α} {X : Prog} {v : Nat} (hd : ∀ s n, X.defn v ≠ .latency s n) :
    valTy base X v = base v := by
  show valTyF base X (v + 1) v = _
  simp only [valTyF]

/-- The shape of a definition of the block after (part of) scheduling. -/
def DefInv {α : Type} (base : Nat → α) (X : Prog) (d : Def) (v : Nat) : Prop :=
  match d with
  | .output (some s) => ∃ s', X.defn v = .output (some s') ∧ valTy base X s' = base s
  | .node args => ∃ args', X.defn v = .node args' ∧ args'.map (valTy base X) = args.map base
  | .offset s k => (∃ s', X.defn v = .offset s' k ∧ s' < v ∧ valTy base X s' = base s) ∨ X.defn v = .erased
  | d => X.defn v = d

structure TyInv {α : Type} (base : Nat → α) (P X : Prog) : Prop where
  size  : P.size ≤ X.size
  down  : LatDown X
  defs  : ∀ v < P.size, DefInv base X (P.defn v) v
  fresh : ∀ v, P.size ≤ v → v < X.size → ∃ s n, X.defn v = .latency s n ∧ 0 < n
  beyond : ∀ v, X.size ≤ v → ∀ s n, X.defn v ≠ .latency s n
  refs  : ∀ v < X.size, ∀ r ∈ (X.defn v).refs, r < X.size

theorem TyInv.init {α : Type} {base : Nat → α} {P : Prog} (hP : WF P) (hb : ∀ v, P.size ≤ v → P.defn v = .erased) : TyInv base P P := by
  have hnl : ∀ v s n, P.defn v ≠ .latency s n := by
    intro v s n
    by_cases h : v < P.size
    · exact (hP.fresh v h).1 s n
    · rw [hb v (by omega)]; simp
  have hty : ∀ v, valTy base P v = base v := fun v => valTy_other (hnl v)
  refine ⟨Nat.le_refl _, fun v s n h => absurd h (hnl v s n), ?_, fun v h1 h2 => by omega, fun v _ s n => hnl v s n,
    fun v hv r hr => by have := hP.refs v hv r hr; omega⟩
  intro v hv
  unfold DefInv
  cases hd : P.defn v with
  | output o => cases o with
    | none => rfl
    | some s => exact ⟨s, rfl, hty s⟩
  | node args => exact ⟨args, rfl, List.map_congr_left fun s _ => hty s⟩
  | offset s k => exact .inl ⟨s, rfl, hP.refs v hv s (by rw [hd]; simp [Def.refs]), hty s⟩
  | _ => rfl

theorem DefInv.congr {α : Type} {base : Nat → α} {X Y : Prog} {d : Def} {v : Nat} (h : DefInv base X d v) (hd : Y.defn v = X.defn v)
    (ht : ∀ s ∈ (X.defn v).refs, valTy base Y s = valTy base X s) : DefInv base Y d v := by
  unfold DefInv at *
  cases d with
  | output o => cases o with
    | none => simp only at *; rw [hd]; exact h
    | some s =>
      obtain ⟨s', h1, h2⟩ := h
      exact ⟨s', by rw [hd]; exact h1, by rw [ht s' (by rw [h1]; simp [Def.refs])]; exact h2⟩
  | node args =>
    obtain ⟨args', h1, h2⟩ := h
    refine ⟨args', by rw [hd]; exact h1, ?_⟩
    rw [← h2]
    exact List.map_congr_left fun s hs => ht s (by rw [h1]; exact hs)
  | offset s k =>
    rcases h with ⟨s', h1, h2, h3⟩ | h
    · exact .inl ⟨s', by rw [hd]; exact h1, h2, by rw [ht s' (by rw [h1]; simp [Def.refs])]; exact h3⟩
    · exact .inr (by rw [hd]; exact h)
  | _ => simp only at *; rw [hd]; exact h

/-- Inserting a fresh buffer for operand `s` of `tgt`, whose definition becomes `d`. -/
theorem insert_tyInv {α : Type} {base : Nat → α} {P X : Prog} (h : TyInv base P X) {tgt s : Nat} {d : Def} {b : Int} (hb : 0 < b)
    (htgt : tgt < X.size) (hs : s ∈ (X.defn tgt).refs) (hdl : ∀ u m, d ≠ .latency u m)
    (hdr : ∀ r ∈ d.refs, r = X.size ∨ r ∈ (X.defn tgt).refs)
    (htl : ∀ u m, X.defn tgt ≠ .latency u m)
    (hshape : ∀ Y : Prog, (∀ r ∈ (X.defn tgt).refs, valTy base Y r = valTy base X r) → valTy base Y X.size = valTy base X s →
      Y.defn tgt = d → tgt < P.size → DefInv base Y (P.defn tgt) tgt) :
    TyInv base P ⟨X.size + 1, ((X.set tgt d).set X.size (.latency s b)).defn⟩ ∧
      (∀ v < X.size, valTy base ⟨X.size + 1, ((X.set tgt d).set X.size (.latency s b)).defn⟩ v = valTy base X v) ∧
      valTy base ⟨X.size + 1, ((X.set tgt d).set X.size (.latency s b)).defn⟩ X.size = valTy base X s := by
  let Y : Prog := ⟨X.size + 1, ((X.set tgt d).set X.size (.latency s b)).defn⟩
  have hsX : s < X.size := h.refs tgt htgt s hs
  have hYn : Y.defn X.size = .latency s b := by simp [Y, Prog.set]
  have hYt : Y.defn tgt = d := by
    have : tgt ≠ X.size := by omega
    simp [Y, Prog.set, this]
  have hYo : ∀ v, v ≠ X.size → v ≠ tgt → Y.defn v = X.defn v := by
    intro v h1 h2; simp [Y, Prog.set, h1, h2]
  have hdown : LatDown Y := by
    intro v u m hv
    by_cases h1 : v = X.size
    · subst h1; rw [hYn] at hv; cases hv; exact hsX
    · by_cases h2 : v = tgt
      · subst h2; rw [hYt] at hv; exact absurd hv (hdl u m)
      · rw [hYo v h1 h2] at hv; exact h.down v u m hv
  have hty : ∀ v, v < X.size → valTy base Y v = valTy base X v := by
    intro v
    induction v using Nat.strongRecOn with
    | _ v ih =>
      intro hv
      by_cases h2 : v = tgt
      · rw [valTy_other (by rw [h2, hYt]; exact hdl), valTy_other (by rw [h2]; exact htl)]
      · have e := hYo v (by omega) h2
        by_cases hl : ∃ u m, X.defn v = .latency u m
        · obtain ⟨u, m, hl⟩ := hl
          have hu := h.down v u m hl
          rw [valTy_latency hdown (e.trans hl), valTy_latency h.down hl]
          exact ih u hu (by omega)
        · have hl' : ∀ u m, X.defn v ≠ .latency u m := fun u m hd => hl ⟨u, m, hd⟩
          rw [valTy_other (by rw [e]; exact hl'), valTy_other hl']
  have htyn : valTy base Y X.size = valTy base X s := by rw [valTy_latency hdown hYn]; exact hty s hsX
  refine ⟨⟨Nat.le_succ_of_le h.size, hdown, ?_, ?_, ?_, ?_⟩, hty, htyn⟩
  · intro v hv
    have hvX : v < X.size := Nat.lt_of_lt_of_le hv h.size
    by_cases h2 : v = tgt
    · subst h2
      exact hshape Y (fun r hr => hty r (h.refs _ htgt r hr)) htyn hYt hv
    · exact (h.defs v hv).congr (hYo v (by omega) h2) (fun r hr => hty r (h.refs v hvX r hr))
  · intro v h1 h2
    by_cases hvn : v = X.size
    · subst hvn; exact ⟨s, b, hYn, hb⟩
    · have hvX : v < X.size := by have : v < X.size + 1 := h2; omega
      obtain ⟨u, m, hu, hm⟩ := h.fresh v h1 hvX
      have hvt : v ≠ tgt := by intro e; subst e; exact htl u m hu
      exact ⟨u, m, (hYo v hvn hvt).trans hu, hm⟩
  · intro v hv u m hd
    have hv' : X.size + 1 ≤ v := hv
    rw [show ((X.set tgt d).set X.size (.latency s b)).defn v = X.defn v from hYo v (by omega) (by omega)] at hd
    exact h.beyond v (by omega) u m hd
  · intro v hv r hr
    show r < X.size + 1
    have hr' : r ∈ (Y.defn v).refs := hr
    by_cases h1 : v = X.size
    · subst h1; rw [hYn] at hr'; simp [Def.refs] at hr'; omega
    · by_cases h2 : v = tgt
      · subst h2; rw [hYt] at hr'
        rcases hdr r hr' with rfl | h3
        · omega
        · have := h.refs v htgt r h3; omega
      · rw [hYo v h1 h2] at hr'
        have hv' : v < X.size + 1 := hv
        have := h.refs v (by omega) r hr'; omega

theorem insertBuffer_tyInv {α : Type} {base : Nat → α} {P X Y : Prog} (h : TyInv base P X) {c : Chan} {b : Int} (hc : c.tgt < X.size)
    (he : insertBuffer X c b = .ok Y) : TyInv base P Y ∧ X.size ≤ Y.size ∧
      (c.tgt < P.size → ∃ r, ((0 ≤ c.valInd ∧ ∃ args, P.defn c.tgt = .node args ∧ args[c.valInd.toNat]? = some r) ∨
          (c.valInd < 0 ∧ P.defn c.tgt = .output (some r))) ∧
        ∀ v < Y.size, valTy base Y v = if v = X.size then base r else valTy base X v) := by
  unfold insertBuffer at he
  split at he
  · cases he
  · rename_i hb
    have hb : 0 < b := by omega
    split at he
    · rename_i hind
      split at he
      · rename_i args hd
        split at he
        · rename_i v hv
          cases he
          have key := insert_tyInv h hb hc (s := v) (d := .node (args.set c.valInd.toNat X.size))
            (by rw [hd]; exact List.mem_of_getElem? hv) (by simp) ?_ (by rw [hd]; simp) ?_
          · refine ⟨key.1, Nat.le_succ _, fun hlt => ?_⟩
            have hdi := h.defs c.tgt hlt
            unfold DefInv at hdi
            cases hP : P.defn c.tgt with
            | node a0 =>
              rw [hP] at hdi
              obtain ⟨args', h1, h2⟩ := hdi
              rw [hd] at h1; cases h1
              have h3 := congrArg (fun l => l[c.valInd.toNat]?) h2
              simp only [List.getElem?_map, hv, Option.map_some] at h3
              cases h4 : a0[c.valInd.toNat]? with
              | none => rw [h4] at h3; cases h3
              | some r =>
                rw [h4] at h3
                simp only [Option.map_some, Option.some.injEq] at h3
                refine ⟨r, .inl ⟨hind, a0, rfl, h4⟩, fun u hu => ?_⟩
                split
                · rename_i e; rw [e, ← h3]; exact key.2.2
                · exact key.2.1 u (by have : u < X.size + 1 := hu; omega)
            | output o => cases o <;> (rw [hP] at hdi; simp [hd] at hdi)
            | offset s k => rw [hP] at hdi; simp [hd] at hdi
            | _ => rw [hP] at hdi; simp [hd] at hdi
          · intro r hr
            rw [hd]
            rcases List.mem_or_eq_of_mem_set hr with h' | h'
            · exact .inr h'
            · exact .inl h'
          · intro Y hY1 hY2 hY3 hlt
            have hdi := h.defs c.tgt hlt
            unfold DefInv at hdi ⊢
            cases hP : P.defn c.tgt with
            | node a0 =>
              rw [hP] at hdi
              obtain ⟨args', h1, h2⟩ := hdi
              rw [hd] at h1; cases h1
              refine ⟨_, hY3, ?_⟩
              rw [← h2, List.map_set]
              have e : (args.map (valTy base Y)) = args.map (valTy base X) :=
                List.map_congr_left fun r hr => hY1 r (by rw [hd]; exact hr)
              rw [e, hY2]
              refine List.ext_getElem (by simp) ?_
              intro j h3 h4
              rw [List.getElem_set]
              split
              · rename_i hj
                subst hj
                obtain ⟨h5, h6⟩ := List.getElem?_eq_some_iff.mp hv
                simp [h6]
              · rfl
            | output o => cases o <;> (rw [hP] at hdi; simp [hd] at hdi)
            | offset s k => rw [hP] at hdi; simp [hd] at hdi
            | _ => rw [hP] at hdi; simp [hd] at hdi
        · cases he
      · cases he
    · split at he
      · cases he
      · split at he
        · rename_i s hd
          cases he
          have key := insert_tyInv h hb hc (s := s) (d := .output (some X.size)) (by rw [hd]; simp [Def.refs]) (by simp) ?_ (by rw [hd]; simp) ?_
          · refine ⟨key.1, Nat.le_succ _, fun hlt => ?_⟩
            have hdi := h.defs c.tgt hlt
            unfold DefInv at hdi
            cases hP : P.defn c.tgt with
            | output o => cases o with
              | none => rw [hP] at hdi; simp [hd] at hdi
              | some s0 =>
                rw [hP] at hdi
                obtain ⟨s', h1, h2⟩ := hdi
                rw [hd] at h1; cases h1
                refine ⟨s0, .inr ⟨by omega, rfl⟩, fun u hu => ?_⟩
                split
                · rename_i e; rw [e, ← h2]; exact key.2.2
                · exact key.2.1 u (by have : u < X.size + 1 := hu; omega)
            | node a0 => rw [hP] at hdi; simp [hd] at hdi
            | offset s k => rw [hP] at hdi; simp [hd] at hdi
            | _ => rw [hP] at hdi; simp [hd] at hdi
          · intro r hr; simp [Def.refs] at hr; exact .inl hr
          · intro Y hY1 hY2 hY3 hlt
            have hdi := h.defs c.tgt hlt
            unfold DefInv at hdi ⊢
            cases hP : P.defn c.tgt with
            | output o => cases o with
              | none => rw [hP] at hdi; simp [hd] at hdi
              | some s0 =>
                rw [hP] at hdi
                obtain ⟨s', h1, h2⟩ := hdi
                rw [hd] at h1; cases h1
                exact ⟨_, hY3, by rw [hY2]; exact h2⟩
            | node a0 => rw [hP] at hdi; simp [hd] at hdi
            | offset s k => rw [hP] at hdi; simp [hd] at hdi
            | _ => rw [hP] at hdi; simp [hd] at hdi
        · cases he

theorem insertBuffers_tyInv {α : Type} {base : Nat → α} {P : Prog} : ∀ (bs : List (Chan × Int)) {X Y : Prog}, TyInv base P X →
    (∀ p ∈ bs, p.1.tgt < X.size) → insertBuffers X bs = .ok Y → TyInv base P Y := by
  intro bs
  induction bs with
  | nil => intro X Y h _ he; simp only [insertBuffers] at he; cases he; exact h
  | cons p bs ih =>
    intro X Y h hb he
    simp only [insertBuffers] at he
    split at he
    · cases he
    · rename_i X1 h1
      obtain ⟨h2, h3, -⟩ := insertBuffer_tyInv h (hb p (by simp)) h1
      exact ih h2 (fun q hq => by have := hb q (by simp [hq]); omega) he

theorem refs_subst {d : Def} {p s r : Nat} (h : r ∈ (d.subst p s).refs) : ∃ w ∈ d.refs, r = if w = p then s else w := by
  cases d with
  | output o => cases o with
    | none => simp [Def.subst, Def.refs] at h
    | some w => simp [Def.subst, Def.refs] at h; exact ⟨w, by simp [Def.refs], h⟩
  | node args =>
    simp only [Def.subst, Def.refs, List.mem_map] at h
    obtain ⟨w, hw, he⟩ := h
    exact ⟨w, hw, he.symm⟩
  | offset w m => simp [Def.subst, Def.refs] at h; exact ⟨w, by simp [Def.refs], h⟩
  | latency w m => simp [Def.subst, Def.refs] at h; exact ⟨w, by simp [Def.refs], h⟩
  | _ => simp [Def.subst, Def.refs] at h

theorem eraseOne_tyInv {α : Type} {base : Nat → α} {P X : Prog} (hoff : ∀ v < P.size, ∀ s k, P.defn v = .offset s k → base s = base v)
    (hnl : ∀ v < P.size, ∀ u m, P.defn v ≠ .latency u m) (h : TyInv base P X) {p : Nat} (hp : p < P.size) :
    TyInv base P (eraseOne X p) ∧ (∀ v, valTy base (eraseOne X p) v = valTy base X v) ∧
      ∀ v u m, (eraseOne X p).defn v = .latency u m → ∃ w, X.defn v = .latency w m := by
  unfold eraseOne
  split
  · rename_i s k hd
    -- the erased offset has the type of its source
    have hps : s < p ∧ valTy base X s = base p := by
      have hdi := h.defs p hp
      unfold DefInv at hdi
      cases hP : P.defn p with
      | offset s0 k0 =>
        rw [hP] at hdi
        rcases hdi with ⟨s', h1, h2, h3⟩ | h1
        · rw [hd] at h1; cases h1
          exact ⟨h2, by rw [h3]; exact hoff p hp s0 _ hP⟩
        · rw [hd] at h1; cases h1
      | output o => cases o <;> (rw [hP] at hdi; simp [hd] at hdi)
      | node a => rw [hP] at hdi; simp [hd] at hdi
      | _ => rw [hP] at hdi; simp [hd] at hdi
    have htp : valTy base X p = base p := valTy_other (by rw [hd]; simp)
    let Y : Prog := { size := X.size, defn := fun j => if j = p then .erased else (X.defn j).subst p s }
    have hYp : Y.defn p = .erased := by simp [Y]
    have hYo : ∀ v, v ≠ p → Y.defn v = (X.defn v).subst p s := by intro v hv; simp [Y, hv]
    have hYl : ∀ v u m, Y.defn v = .latency u m → v ≠ p ∧ ∃ w, X.defn v = .latency w m ∧ u = if w = p then s else w := by
      intro v u m hv
      by_cases hvp : v = p
      · subst hvp; rw [hYp] at hv; cases hv
      · refine ⟨hvp, ?_⟩
        rw [hYo v hvp] at hv
        cases hX : X.defn v with
        | output o => rw [hX] at hv; cases o <;> simp [Def.subst] at hv
        | latency w n => rw [hX] at hv; simp [Def.subst] at hv; exact ⟨w, by rw [hv.2], hv.1.symm⟩
        | _ => rw [hX] at hv; simp [Def.subst] at hv
    have hdown : LatDown Y := by
      intro v u m hv
      obtain ⟨_, w, h1, rfl⟩ := hYl v u m hv
      have := h.down v w m h1
      split
      · rename_i hw; subst hw; omega
      · exact this
    have hty : ∀ v, valTy base Y v = valTy base X v := by
      intro v
      induction v using Nat.strongRecOn with
      | _ v ih =>
        by_cases hvp : v = p
        · subst hvp
          rw [htp, valTy_other (by rw [hYp]; simp)]
        · by_cases hl : ∃ u m, X.defn v = .latency u m
          · obtain ⟨u, m, hl⟩ := hl
            have hu := h.down v u m hl
            have hY : Y.defn v = .latency (if u = p then s else u) m := by rw [hYo v hvp, hl]; rfl
            rw [valTy_latency hdown hY, valTy_latency h.down hl]
            split
            · rename_i hup
              subst hup
              rw [ih s (by omega), hps.2, htp]
            · exact ih u hu
          · have h1 : ∀ u m, X.defn v ≠ .latency u m := fun u m hd => hl ⟨u, m, hd⟩
            have h2 : ∀ u m, Y.defn v ≠ .latency u m := by
              intro u m hY
              obtain ⟨_, w, hw, _⟩ := hYl v u m hY
              exact h1 w m hw
            rw [valTy_other h1, valTy_other h2]
    have hsub : ∀ w, valTy base X (if w = p then s else w) = valTy base X w := by
      intro w
      split
      · rename_i hw; subst hw; rw [hps.2, htp]
      · rfl
    refine ⟨⟨h.size, hdown, ?_, ?_, ?_, ?_⟩, hty, fun v u m hv => (hYl v u m hv).2.imp fun _ h => h.1⟩
    · intro v hv
      by_cases hvp : v = p
      · subst hvp
        have hdi := h.defs v hv
        show DefInv base Y _ _
        unfold DefInv at hdi ⊢
        cases hP : P.defn v with
        | offset s0 k0 => exact .inr hYp
        | output o => cases o <;> (rw [hP] at hdi; simp [hd] at hdi)
        | node a => rw [hP] at hdi; simp [hd] at hdi
        | _ => rw [hP] at hdi; simp [hd] at hdi
      · have hdi := h.defs v hv
        have e := hYo v hvp
        show DefInv base Y _ _
        unfold DefInv at hdi ⊢
        cases hP : P.defn v with
        | offset s0 k0 =>
          rw [hP] at hdi
          rcases hdi with ⟨s', h1, h2, h3⟩ | h1
          · refine .inl ⟨if s' = p then s else s', by rw [e, h1]; rfl, ?_, by rw [hty, hsub]; exact h3⟩
            split
            · rename_i hw; subst hw; omega
            · exact h2
          · exact .inr (by rw [e, h1]; rfl)
        | output o => cases o with
          | none => rw [hP] at hdi; simp only at hdi ⊢; rw [e, hdi]; rfl
          | some s0 =>
            rw [hP] at hdi
            obtain ⟨s', h1, h2⟩ := hdi
            exact ⟨if s' = p then s else s', by rw [e, h1]; rfl, by rw [hty, hsub]; exact h2⟩
        | node a0 =>
          rw [hP] at hdi
          obtain ⟨args', h1, h2⟩ := hdi
          refine ⟨args'.map fun v => if v = p then s else v, by rw [e, h1]; rfl, ?_⟩
          rw [← h2, List.map_map]
          refine List.map_congr_left fun w _ => ?_
          simp only [Function.comp_apply, hty, hsub]
        | latency u m => exact absurd hP (hnl v hv u m)
        | _ => rw [hP] at hdi; simp only at hdi ⊢; rw [e, hdi]; rfl
    · intro v h1 h2
      obtain ⟨u, m, hu, hm⟩ := h.fresh v h1 h2
      have hvp : v ≠ p := by omega
      refine ⟨if u = p then s else u, m, ?_, hm⟩
      show Y.defn v = _
      rw [hYo v hvp, hu]; rfl
    · intro v hv u m hY
      obtain ⟨_, w, hw, _⟩ := hYl v u m hY
      exact h.beyond v hv w m hw
    · intro v hv r hr
      show r < X.size
      have hr' : r ∈ (Y.defn v).refs := hr
      by_cases hvp : v = p
      · subst hvp; rw [hYp] at hr'; simp [Def.refs] at hr'
      · rw [hYo v hvp] at hr'
        obtain ⟨w, hw, rfl⟩ := refs_subst hr'
        have := h.refs v hv w hw
        split
        · have := h.size; omega
        · exact this
  · exact ⟨h, fun _ => rfl, fun v u m hv => ⟨u, hv⟩⟩

theorem eraseFold_tyInv {α : Type} {base : Nat → α} {P : Prog} (hoff : ∀ v < P.size, ∀ s k, P.defn v = .offset s k → base s = base v)
    (hnl : ∀ v < P.size, ∀ u m, P.defn v ≠ .latency u m) : ∀ (l : List Nat) {X : Prog}, TyInv base P X → (∀ p ∈ l, p < P.size) →
    TyInv base P (l.foldl eraseOne X) := by
  intro l
  induction l with
  | nil => intro X h _; exact h
  | cons p l ih => intro X h hl; exact ih (eraseOne_tyInv hoff hnl h (hl p (by simp))).1 (fun q hq => hl q (by simp [hq]))

/-- Scheduling keeps shapes and types, and leaves no cycle. -/
theorem applySchedule_tyInv {α : Type} {base : Nat → α} {P P' : Prog} (hP : WF P) (hb : ∀ v, P.size ≤ v → P.defn v = .erased)
    (hoff : ∀ v < P.size, ∀ s k, P.defn v = .offset s k → base s = base v) {bs : List (Chan × Int)}
    (hbs : ∀ p ∈ bs, p.1 ∈ channels P) (h : applySchedule P bs = .ok P') : TyInv base P P' ∧ Ranked P' := by
  unfold applySchedule at h
  split at h
  · cases h
  · rename_i P1 h1
    cases h
    have hlt : ∀ p ∈ bs, p.1.tgt < P.size := fun p hp => (chan_lt hP (hbs p hp)).2
    refine ⟨eraseFold_tyInv hoff (fun v hv => (hP.fresh v hv).1) _ (insertBuffers_tyInv bs (TyInv.init hP hb) hlt h1)
      (fun p hp => List.mem_range.1 hp), ?_⟩
    obtain ⟨h2, h3⟩ := insertBuffers_ranked bs hP.ranked hlt h1
    exact eraseFold_ranked _ h2 (fun p hp => by have := List.mem_range.1 hp; omega)

end Verif.Flow
