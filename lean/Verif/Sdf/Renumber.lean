import Verif.Sdf.Read
/-
What is read from the text of a scheduled block is the block with its values renumbered.
-/
namespace Verif.Sdf
open Verif.Dfcxx Verif.Flow Verif.Sched Verif.Text

section
variable {prog : List DStmt} {X : Prog} {ls : List Line} {att : Nat → Int}

theorem Ready.val_latency {v s : Nat} {n : Int} {num : Nat → Nat} (hd : X.defn v = .latency s n) :
    lineS prog X att num (.val v) = .buffer n (num s) (valTy (valueTy prog) X v).ty := by simp [lineS, hd]

theorem Ready.val_op {v : Nat} {num : Nat → Nat} {o : OpInfo} (hl : ∀ s n, X.defn v ≠ .latency s n) (ho : (opsOf prog)[v]? = some o) :
    lineS prog X att num (.val v) = .op ⟨o.kind, o.ty, o.attr, (operandsOf (X.defn v)).map num⟩ (if hasLat o.kind then att v else 0) := by
  simp only [lineS]
  cases hd : X.defn v with
  | latency s n => exact absurd hd (hl s n)
  | _ => simp only [ho]

theorem Ready.val_not_connect (R : Ready prog X ls att) {v : Nat} {num : Nat → Nat} (hv : v ∈ valsOf ls) (d s : Nat) :
    lineS prog X att num (.val v) ≠ .connect d s := by
  by_cases hlat : ∃ s n, X.defn v = .latency s n
  · obtain ⟨s, n, e⟩ := hlat
    rw [Ready.val_latency e]; simp
  · have hl' : ∀ s n, X.defn v ≠ .latency s n := fun s n e => hlat ⟨s, n, e⟩
    obtain ⟨o, ho, -⟩ := R.orig hv hl'
    rw [Ready.val_op hl' ho]; simp

theorem Ready.con_line (R : Ready prog X ls att) {d : Nat} {num : Nat → Nat} (hd : .con d ∈ ls) :
    ∃ s, X.defn d = .output (some s) ∧ lineS prog X att num (.con d) = .connect (num d) (num s) := by
  obtain ⟨s, e⟩ := (R.lines.cons d).mp hd
  exact ⟨s, e, by simp [lineS, e]⟩

theorem Ready.sVals_sub (R : Ready prog X ls att) {num : Nat → Nat} : ∀ q : List Line, (∀ l ∈ q, l ∈ ls) →
    sVals (q.map (lineS prog X att num)) = (valsOf q).map fun v => lineS prog X att num (.val v)
  | [], _ => rfl
  | l :: q, h => by
    have ih := R.sVals_sub (num := num) q fun l hl => h l (by simp [hl])
    have hl := h l (by simp)
    cases l with
    | val v =>
      have := R.val_not_connect (num := num) (mem_valsOf.mpr hl)
      rw [valsOf_cons_val, List.map_cons, List.map_cons, ← ih]
      unfold sVals
      rw [List.filter_cons_of_pos]
      cases hx : lineS prog X att num (.val v) with
      | connect d s => exact absurd hx (this d s)
      | _ => rfl
    | con d =>
      obtain ⟨s, -, e⟩ := R.con_line (num := num) hl
      rw [valsOf_cons_con, List.map_cons, ← ih, e]
      rfl

theorem Ready.sVals (R : Ready prog X ls att) {num : Nat → Nat} :
    sVals (ls.map (lineS prog X att num)) = (valsOf ls).map fun v => lineS prog X att num (.val v) := R.sVals_sub ls fun _ h => h

theorem Ready.at (R : Ready prog X ls att) {num : Nat → Nat} {v : Nat} (hv : v ∈ valsOf ls) :
    (Sdf.sVals (ls.map (lineS prog X att num)))[numIn ls v]? = some (lineS prog X att num (.val v)) := by
  rw [R.sVals, List.getElem?_map]
  unfold numIn
  rw [getElem?_idxOf hv]
  rfl

/-- Connections are found by the number of the output. -/
theorem Ready.connected_sub (R : Ready prog X ls att) {d : Nat} (hd : d ∈ valsOf ls) : ∀ q : List Line, (∀ l ∈ q, l ∈ ls) →
    sConnected (q.map (lineS prog X att (numIn ls))) (numIn ls d) =
      if .con d ∈ q then (match X.defn d with | .output (some s) => some (numIn ls s) | _ => none) else none
  | [], _ => rfl
  | l :: q, h => by
    have ih := R.connected_sub hd q fun l hl => h l (by simp [hl])
    have hl := h l (by simp)
    cases l with
    | val v =>
      have := R.val_not_connect (num := numIn ls) (mem_valsOf.mpr hl)
      have e : sConnected ((Line.val v :: q).map (lineS prog X att (numIn ls))) (numIn ls d) =
          sConnected (q.map (lineS prog X att (numIn ls))) (numIn ls d) := by
        unfold sConnected
        rw [List.map_cons, List.findSome?_cons]
        cases hx : lineS prog X att (numIn ls) (.val v) with
        | connect d s => exact absurd hx (this d s)
        | _ => rfl
      rw [e, ih]
      simp
    | con d' =>
      obtain ⟨s, e1, e2⟩ := R.con_line (num := numIn ls) hl
      unfold sConnected at ih ⊢
      rw [List.map_cons, List.findSome?_cons, e2]
      simp only
      by_cases hdd : d = d'
      · subst hdd
        simp [e1]
      · have hne : numIn ls d' ≠ numIn ls d := fun e => hdd (idxOf_inj hd e.symm)
        rw [if_neg hne, ih]
        simp [hdd]

theorem Ready.connected (R : Ready prog X ls att) {d : Nat} (hd : d ∈ valsOf ls) {s : Option Nat} (he : X.defn d = .output s) :
    sConnected (ls.map (lineS prog X att (numIn ls))) (numIn ls d) = s.map (numIn ls) := by
  rw [R.connected_sub hd ls fun _ h => h]
  cases s with
  | none =>
    rw [if_neg]
    · rfl
    · intro h
      obtain ⟨s, e⟩ := (R.lines.cons d).mp h
      rw [he] at e
      simp at e
  | some s =>
    rw [if_pos ((R.lines.cons d).mpr ⟨s, he⟩), he]
    rfl

/-- Values are read after they are defined. -/
theorem ord_mem {l : Line} : ∀ {ls : List Line} {seen : List Nat}, Ord X seen ls → l ∈ ls →
    ∃ p q, ls = p ++ l :: q ∧ ∀ r ∈ needs X l, r ∈ seen ++ valsOf p
  | a :: ls, seen, ho, hl => by
    by_cases e : l = a
    · subst e
      exact ⟨[], ls, rfl, by simpa [valsOf] using ho.1⟩
    · obtain ⟨p, q, h1, h2⟩ := ord_mem ho.2 (by simpa [e] using hl)
      refine ⟨a :: p, q, by simp [h1], fun r hr => ?_⟩
      have := h2 r hr
      rw [List.append_assoc, ← valsOf_append] at this
      exact this

theorem Ready.refs_live (R : Ready prog X ls att) {v : Nat} (hv : v ∈ valsOf ls) : ∀ r ∈ (X.defn v).refs, r ∈ valsOf ls := by
  intro r hr
  have key : ∀ l ∈ ls, r ∈ needs X l → r ∈ valsOf ls := by
    intro l hl hn
    obtain ⟨p, q, e, h⟩ := ord_mem R.lines.ord hl
    have := h r hn
    rw [e, valsOf_append]
    simp at this ⊢
    exact .inl this
  cases hd : X.defn v with
  | output o =>
    rw [hd] at hr
    cases o with
    | none => simp [Def.refs] at hr
    | some s => exact key (.con v) ((R.lines.cons v).mpr ⟨s, hd⟩) (by simp [needs, hd, hr])
  | node args => exact key (.val v) (mem_valsOf.mp hv) (by rw [hd] at hr; simpa [needs, hd, operandsOf, Def.refs] using hr)
  | offset s k => exact key (.val v) (mem_valsOf.mp hv) (by rw [hd] at hr; simpa [needs, hd, operandsOf, Def.refs] using hr)
  | latency s k => exact key (.val v) (mem_valsOf.mp hv) (by rw [hd] at hr; simpa [needs, hd, operandsOf, Def.refs] using hr)
  | _ => rw [hd] at hr; simp [Def.refs] at hr

/-- What is read from the text. -/
theorem Ready.renumbered (R : Ready prog X ls att) {lat : Nat → Int} (hlat : ∀ v, lat v = max 0 (att v)) :
    Renumbered (opsOf prog) X lat (valsOf ls) (sOps (ls.map (lineS prog X att (numIn ls)))) (sProg (ls.map (lineS prog X att (numIn ls))))
      (sLat (ls.map (lineS prog X att (numIn ls)))) where
  nodup := R.lines.nodup
  mem := R.lines.vals
  refs := fun v hv => R.refs_live hv
  down := R.inv.down
  down' := by
    intro v hv s n hd
    obtain ⟨p, q, e, h⟩ := ord_mem R.lines.ord (mem_valsOf.mp hv)
    have hs := h s (by simp [needs, hd, operandsOf])
    simp only [List.nil_append] at hs
    have hnd := R.lines.nodup
    rw [e, valsOf_append] at hnd ⊢
    have hvp : v ∉ valsOf p := fun hvp => (List.disjoint_of_nodup_append hnd) hvp (by simp [valsOf_cons_val])
    rw [List.idxOf_append_of_mem hs, List.idxOf_append_of_notMem hvp]
    have := List.idxOf_lt_length_iff.mpr hs
    omega
  size := by
    show (Sdf.sVals _).length = _
    rw [R.sVals, List.length_map]
  defn := by
    intro v hv
    have hat := R.at (num := numIn ls) hv
    show (sProg _).defn (numIn ls v) = _
    simp only [sProg, hat]
    by_cases hl : ∃ s n, X.defn v = .latency s n
    · obtain ⟨s, n, e⟩ := hl
      rw [Ready.val_latency e, e]
      rfl
    · have hl' : ∀ s n, X.defn v ≠ .latency s n := fun s n e => hl ⟨s, n, e⟩
      obtain ⟨o, ho, hsh⟩ := R.orig hv hl'
      rw [Ready.val_op hl' ho]
      have hcn := fun s => R.connected (s := s) hv
      cases hk : o.kind <;> simp only [hk] at hsh ⊢ <;> first
        | (rw [hsh]; rfl)
        | (obtain ⟨s, e⟩ := hsh; rw [hcn s e, e]; cases s <;> rfl)
        | (obtain ⟨args, e, e2⟩ := hsh; rw [e]; rfl)
        | exact absurd hsh id
  same := by
    intro v hv hl'
    obtain ⟨o, ho, -⟩ := R.orig hv hl'
    refine ⟨o, ⟨o.kind, o.ty, o.attr, (operandsOf (X.defn v)).map (numIn ls)⟩, ho, ?_, rfl, rfl, rfl⟩
    have hat := R.at (num := numIn ls) hv
    show (sOps _)[numIn ls v]? = _
    unfold sOps
    rw [List.getElem?_map, hat, Ready.val_op hl' ho]
    rfl
  lats := by
    intro v hv o ho hu hnode
    obtain ⟨args, e⟩ := hnode
    have hl' : ∀ s n, X.defn v ≠ .latency s n := fun s n e' => by rw [e] at e'; cases e'
    have hat := R.at (num := numIn ls) hv
    show sLat _ (numIn ls v) = _
    unfold sLat
    rw [hat, Ready.val_op hl' ho]
    simp only [hasLat, hu, if_true]
    exact (hlat v).symm

/-- **The scheduled text is read back.** It is well formed, and converting it gives the circuit of the block renumbered. -/
theorem Ready.text (R : Ready prog X ls att) (name : String) {pick : IntAttr → IntAttr → IntAttr} (hp : ∀ a, pick a a = a) :
    ∃ body, ls.mapM (lineText prog X att (numIn ls)) = some body ∧ FileOK ⟨nameChars name, body⟩ ∧
      convertText pick (print ⟨nameChars name, body⟩) =
        some (sCircuit (ls.map (lineS prog X att (numIn ls))), (sProg (ls.map (lineS prog X att (numIn ls)))).size) := by
  obtain ⟨body, h1, h2, h3⟩ := R.suffix ls [] rfl R.lines.ord
  have hf : FileOK ⟨nameChars name, body⟩ := ⟨nameChars_ok _, h2⟩
  refine ⟨body, h1, hf, ?_⟩
  unfold convertText
  rw [print_parse hp hf]
  simp only
  rw [h3]
  rfl

end
end Verif.Sdf
