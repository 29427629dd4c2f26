import Verif.Sdf.Order
import Verif.Flow.Core
/-
The lines of the scheduled block: every live value once, every connected output's connection, operands first.
-/
namespace Verif.Sdf
open Verif.Dfcxx Verif.Flow Verif.Sched Verif.Text

/-- The operations of a block that is being scheduled. -/
structure LineInv (X : Prog) (ls : List Line) : Prop where
  vals : (valsOf ls).Perm (List.range X.size)
  cons : ∀ d, .con d ∈ ls ↔ ∃ s, X.defn d = .output (some s)
  lt   : ∀ d, .con d ∈ ls → d < X.size
  ord  : Ord X [] ls

theorem LineInv.mem {X : Prog} {ls : List Line} (h : LineInv X ls) {v : Nat} : .val v ∈ ls ↔ v < X.size := by
  rw [← mem_valsOf, h.vals.mem_iff, List.mem_range]

/-- Insertion of a buffer for operand `s` of `x`, whose definition becomes `d`. -/
theorem LineInv.insert {X : Prog} {ls : List Line} (h : LineInv X ls) {tgt s : Nat} {d : Def} {b : Int} {x : Line} (htgt : tgt < X.size)
    (hx : x ∈ ls) (hxt : x = .val tgt ∨ x = .con tgt) (hout : (∃ s, d = .output (some s)) ↔ ∃ s, X.defn tgt = .output (some s))
    (hn : ∀ Y : Prog, Y.defn tgt = d → (∀ r ∈ needs Y x, r = X.size ∨ r ∈ needs X x) ∧
      ∀ l, (l = .val tgt ∨ l = .con tgt) → l ≠ x → l ∈ ls → needs Y l = needs X l)
    (hs : s ∈ needs X x) :
    LineInv ⟨X.size + 1, ((X.set tgt d).set X.size (.latency s b)).defn⟩ (before x (.val X.size) ls) := by
  let Y : Prog := ⟨X.size + 1, ((X.set tgt d).set X.size (.latency s b)).defn⟩
  have hYn : Y.defn X.size = .latency s b := by simp [Y, Prog.set]
  have hYt : Y.defn tgt = d := by
    have : tgt ≠ X.size := by omega
    simp [Y, Prog.set, this]
  have hYo : ∀ v, v ≠ X.size → v ≠ tgt → Y.defn v = X.defn v := by
    intro v h1 h2; simp [Y, Prog.set, h1, h2]
  have hfr : ∀ s, X.defn X.size ≠ .output (some s) := fun s e => absurd (h.lt _ ((h.cons _).mpr ⟨s, e⟩)) (Nat.lt_irrefl _)
  refine ⟨?_, ?_, ?_, ?_⟩
  · refine (vals_before hx).trans ?_
    show (X.size :: valsOf ls).Perm (List.range (X.size + 1))
    rw [List.range_succ]
    exact (h.vals.cons _).trans (List.perm_append_singleton _ _).symm
  · intro d'
    have e1 : .con d' ∈ before x (.val X.size) ls ↔ .con d' ∈ ls :=
      ⟨fun hm => (of_mem_before hm).resolve_left (by simp), mem_before⟩
    rw [e1, h.cons]
    show _ ↔ ∃ s, Y.defn d' = _
    by_cases h1 : d' = X.size
    · subst h1
      rw [hYn]
      simp [hfr]
    · by_cases h2 : d' = tgt
      · subst h2; rw [hYt, hout]
      · rw [hYo d' h1 h2]
  · intro d' hd'
    have := h.lt d' ((of_mem_before hd').resolve_left (by simp))
    show d' < X.size + 1
    omega
  · refine h.ord.insert (Y := Y) ?_ (hn Y hYt).1 ?_
    · intro l hl hne
      cases l with
      | val v =>
        have hv := h.mem.mp hl
        by_cases e : v = tgt
        · subst e; exact (hn Y hYt).2 _ (.inl rfl) hne hl
        · simp only [needs]; rw [hYo v (by omega) e]
      | con v =>
        have hv := h.lt v hl
        by_cases e : v = tgt
        · subst e; exact (hn Y hYt).2 _ (.inr rfl) hne hl
        · simp only [needs]; rw [hYo v (by omega) e]
    · intro r hr
      simp only [needs, hYn, operandsOf, List.mem_singleton] at hr
      rw [hr]
      exact hs

theorem LineInv.buffer {X Y : Prog} {ls : List Line} (h : LineInv X ls) {c : Sched.Chan} {b : Int} (hc : c.tgt < X.size) (he : insertBuffer X c b = .ok Y) :
    Y.size = X.size + 1 ∧ LineInv Y (lineBuffer X.size c ls) := by
  unfold insertBuffer at he
  unfold lineBuffer
  split at he
  · cases he
  · split at he
    · rename_i hind
      rw [if_pos hind]
      split at he
      · rename_i args hd
        split at he
        · rename_i v hv
          cases he
          refine ⟨rfl, h.insert hc (h.mem.mpr hc) (.inl rfl) (by simp [hd]) ?_ ?_⟩
          · intro Y hY
            refine ⟨fun r hr => ?_, fun l hl hne hm => ?_⟩
            · simp only [needs, hY, hd, operandsOf] at hr ⊢
              rcases List.mem_or_eq_of_mem_set hr with h' | h'
              · exact .inr h'
              · exact .inl h'
            · rcases hl with rfl | rfl
              · exact absurd rfl hne
              · obtain ⟨s, e⟩ := (h.cons _).mp hm
                rw [hd] at e; cases e
          · simp only [needs, hd, operandsOf]
            exact List.mem_of_getElem? hv
        · cases he
      · cases he
    · rename_i hind
      rw [if_neg hind]
      split at he
      · cases he
      · split at he
        · rename_i s hd
          cases he
          refine ⟨rfl, h.insert hc ((h.cons _).mpr ⟨s, hd⟩) (.inr rfl) (by simp [hd]) ?_ (by simp [needs, hd, Def.refs])⟩
          intro Y hY
          refine ⟨fun r hr => ?_, fun l hl hne hm => ?_⟩
          · simp only [needs, hY, hd, Def.refs, List.mem_cons, List.not_mem_nil, or_false] at hr ⊢
            tauto
          · rcases hl with rfl | rfl
            · simp [needs, hY, hd, operandsOf]
            · exact absurd rfl hne
        · cases he

theorem LineInv.buffers : ∀ {bs : List (Sched.Chan × Int)} {X Y : Prog} {ls : List Line}, LineInv X ls → (∀ p ∈ bs, p.1.tgt < X.size) →
    insertBuffers X bs = .ok Y → LineInv Y (lineBuffers X.size bs ls)
  | [], X, Y, ls, h, _, he => by simp only [insertBuffers] at he; cases he; exact h
  | (c, b) :: bs, X, Y, ls, h, hb, he => by
    simp only [insertBuffers] at he
    split at he
    · cases he
    · rename_i X1 h1
      obtain ⟨e, h2⟩ := h.buffer (hb (c, b) (by simp)) h1
      have := LineInv.buffers h2 (fun p hp => by have := hb p (by simp [hp]); omega) he
      simp only [lineBuffers]
      rw [← e]
      exact this

theorem operandsOf_subst {d : Def} {p q r : Nat} (h : r ∈ operandsOf (d.subst p q)) : (r = q ∧ p ∈ operandsOf d) ∨ r ∈ operandsOf d := by
  cases d with
  | output o => cases o <;> simp [Def.subst, operandsOf] at h
  | node args =>
    simp only [Def.subst, operandsOf, List.mem_map] at h ⊢
    obtain ⟨w, hw, rfl⟩ := h
    split
    · rename_i e; subst e; exact .inl ⟨rfl, hw⟩
    · exact .inr hw
  | offset w m =>
    simp only [Def.subst, operandsOf, List.mem_singleton] at h ⊢
    split at h
    · rename_i e; exact .inl ⟨h, e.symm⟩
    · exact .inr h
  | latency w m =>
    simp only [Def.subst, operandsOf, List.mem_singleton] at h ⊢
    split at h
    · rename_i e; exact .inl ⟨h, e.symm⟩
    · exact .inr h
  | _ => simp [Def.subst, operandsOf] at h

theorem LineInv.erase {X : Prog} {ls : List Line} (h : LineInv X ls) (p : Nat) : LineInv (eraseOne X p) ls := by
  unfold eraseOne
  split
  · rename_i s k hd
    refine ⟨h.vals, fun d => ?_, h.lt, ?_⟩
    · rw [h.cons]
      by_cases e : d = p
      · subst e; simp [hd]
      · simp only [e, if_false]
        cases hx : X.defn d with
        | output o => cases o <;> simp [Def.subst]
        | _ => simp [Def.subst]
    · refine h.ord.replace (p := p) (q := s) ?_ ?_ (by simp)
      · intro l hl hne r hr
        cases l with
        | val v =>
          have e : v ≠ p := fun e => hne (by rw [e])
          simp only [needs, e, if_false] at hr ⊢
          exact operandsOf_subst hr
        | con d =>
          simp only [needs, List.mem_cons] at hr ⊢
          rcases hr with rfl | hr
          · exact .inr (.inl rfl)
          · have e : d ≠ p := by
              rintro rfl
              simp [Def.refs] at hr
            simp only [e, if_false] at hr
            obtain ⟨w, hw, rfl⟩ := refs_subst hr
            split
            · rename_i e2; subst e2; exact .inl ⟨rfl, .inr hw⟩
            · exact .inr (.inr hw)
      · intro _
        exact ⟨by simp [needs, hd, operandsOf], by simp [needs, operandsOf]⟩
  · exact h

theorem LineInv.erases {ls : List Line} : ∀ (l : List Nat) {X : Prog}, LineInv X ls → LineInv (l.foldl eraseOne X) ls
  | [], _, h => h
  | p :: l, _, h => LineInv.erases l (h.erase p)

theorem LineInv.start {V : Nat → NodeV} {order : List Nat} (hto : TopoOrder V order) (hc : ∀ n ∈ order, Complete V n) (ho : OffsetsFit V order) :
    LineInv (progOf (block V order)) (linesFrom 0 (block V order)) := by
  have hP := block_wf hto hc ho
  refine ⟨?_, fun d => ?_, fun d hd => ?_, ?_⟩
  · rw [valsOf_linesFrom, ← List.range_eq_range']
    exact .refl _
  · rw [linesFrom_con, ← connectedTo_isSome]
    constructor
    · intro h
      obtain ⟨s, hs⟩ := Option.isSome_iff_exists.mp h
      obtain ⟨s', hs'⟩ := connectedTo_isSome.mp h
      unfold block at hs'
      obtain ⟨n, hn, hm⟩ := List.mem_flatMap.mp hs'
      unfold exactStmts exactStmt at hm
      cases hg : getConnection (V n) with
      | none => simp [hg] at hm
      | some t =>
        simp [hg] at hm
        obtain ⟨rfl, -⟩ := hm
        rw [progOf_defn V hn (hc n hn)]
        have hop : (V n).op = .OUT := by
          unfold getConnection at hg
          by_contra hne
          have hcn := (hc n hn)
          split at hg
          · rename_i x hx
            have := hcn.flags hne (x, true) (by rw [hx]; simp)
            cases this
          · cases hg
        exact ⟨order.idxOf t, by simp [defOf, hop, hg]⟩
    · rintro ⟨s, hs⟩
      simp only [progOf] at hs
      cases ho : (opsOf (block V order))[d]? with
      | none => simp [ho] at hs
      | some o =>
        simp only [ho] at hs
        cases hk : o.kind <;> simp only [hk] at hs <;> first
          | (simp at hs; rw [hs]; rfl)
          | (simp at hs; done)
          | (split at hs <;> simp at hs)
  · have : ∀ (prog : List DStmt) (k : Nat), ConnsOK k prog → .con d ∈ linesFrom k prog → d < k + (opsOf prog).length := by
      intro prog
      induction prog with
      | nil => intro k _ h; simp [linesFrom] at h
      | cons st r ih =>
        intro k hk h
        cases st with
        | op a b c e =>
          simp only [linesFrom, List.mem_cons, reduceCtorEq, false_or] at h
          have := ih (k + 1) hk h
          have hl : (opsOf (.op a b c e :: r)).length = (opsOf r).length + 1 := rfl
          omega
        | connect d' s' =>
          simp only [linesFrom, List.mem_cons, Line.con.injEq] at h
          have hl : (opsOf (.connect d' s' :: r)).length = (opsOf r).length := rfl
          rcases h with rfl | h
          · have := hk.1; omega
          · have := ih k hk.2 h; omega
    have := this _ 0 (block_connsOK hto.nodup) hd
    simpa [progOf] using this
  · exact ord_linesFrom hP _ 0 (by simp [progOf]) (block_connsOK hto.nodup)

/-- The lines of the scheduled block. -/
structure SchedInv (X : Prog) (ls : List Line) : Prop where
  nodup : (valsOf ls).Nodup
  vals  : ∀ v, v ∈ valsOf ls ↔ v < X.size ∧ X.defn v ≠ .erased
  cons  : ∀ d, .con d ∈ ls ↔ ∃ s, X.defn d = .output (some s)
  ord   : Ord X [] ls

theorem schedLines_inv {V : Nat → NodeV} {order : List Nat} (hto : TopoOrder V order) (hc : ∀ n ∈ order, Complete V n) (ho : OffsetsFit V order)
    {bs : List (Sched.Chan × Int)} (hbs : ∀ p ∈ bs, p.1 ∈ channels (progOf (block V order))) {X : Prog}
    (h : applySchedule (progOf (block V order)) bs = .ok X) : SchedInv X (schedLines (block V order) bs X) := by
  have hP := block_wf hto hc ho
  have hnd := applySchedule_noDangling hP hbs h
  have hinv : LineInv X (lineBuffers (progOf (block V order)).size bs (linesFrom 0 (block V order))) := by
    unfold applySchedule at h
    split at h
    · cases h
    · rename_i P1 h1
      cases h
      exact ((LineInv.start hto hc ho).buffers (fun p hp => (chan_lt hP (hbs p hp)).2) h1).erases _
  unfold schedLines
  generalize lineBuffers (progOf (block V order)).size bs (linesFrom 0 (block V order)) = ls at hinv
  have hv : valsOf (ls.filter (alive X)) = (valsOf ls).filter fun v => decide (X.defn v ≠ .erased) := by
    clear hinv
    induction ls with
    | nil => rfl
    | cons l ls ih =>
      cases l with
      | val v =>
        by_cases e : X.defn v = .erased
        · rw [List.filter_cons_of_neg (by simp [alive, e]), valsOf_cons_val, List.filter_cons_of_neg (by simp [e]), ih]
        · rw [List.filter_cons_of_pos (by simp [alive, e]), valsOf_cons_val, valsOf_cons_val, List.filter_cons_of_pos (by simp [e]), ih]
      | con d => rw [List.filter_cons_of_pos rfl, valsOf_cons_con, valsOf_cons_con, ih]
  refine ⟨?_, fun v => ?_, fun d => ?_, ?_⟩
  · rw [hv]
    exact (hinv.vals.nodup_iff.mpr List.nodup_range).filter _
  · rw [hv, List.mem_filter, hinv.vals.mem_iff, List.mem_range]
    simp
  · rw [List.mem_filter, hinv.cons]
    simp [alive]
  · have := hinv.ord.filter (X := X) (s := []) (ls := ls) ?_
    · simpa using this
    · intro l hl ha r hr
      cases l with
      | val v =>
        refine hnd v (hinv.mem.mp hl) r ?_
        simp only [needs] at hr
        cases hd : X.defn v <;> rw [hd] at hr <;> simp [operandsOf] at hr <;> simp [Def.refs, hr]
      | con d =>
        rcases List.mem_cons.mp hr with rfl | hr
        · obtain ⟨s, e⟩ := (hinv.cons _).mp hl
          rw [e]; simp
        · exact hnd d (hinv.lt d hl) r hr

end Verif.Sdf
