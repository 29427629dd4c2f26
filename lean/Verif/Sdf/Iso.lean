import Verif.Sdf.Lines
import Verif.Flow.Props
/-
Renumbering the values of a scheduled block does not change the circuit it is converted to.
-/
namespace Verif.Sdf
open Verif.Dfcxx Verif.Flow Verif.Sched Verif.Hw

def mapDef (f : Nat → Nat) : Def → Def
  | .output s => .output (s.map f)
  | .node args => .node (args.map f)
  | .offset s k => .offset (f s) k
  | .latency s n => .latency (f s) n
  | d => d

def mapCell (f : Nat → Nat) : Cell → Cell
  | .output nm ty s => .output nm ty (s.map f)
  | .inst m args => .inst m (args.map f)
  | .and ty a b => .and ty (f a) (f b)
  | .or ty a b => .or ty (f a) (f b)
  | .xor ty a b => .xor ty (f a) (f b)
  | .not ty a => .not ty (f a)
  | .shl a k => .shl (f a) k
  | .shr a k => .shr (f a) k
  | .mux c vars => .mux (f c) (vars.map f)
  | .bits a l r => .bits (f a) l r
  | .cat a b => .cat (f a) (f b)
  | c => c

/-- The wires a cell reads. -/
def cellArgs : Cell → List Nat
  | .output _ _ (some s) => [s]
  | .inst _ args => args
  | .and _ a b | .or _ a b | .xor _ a b | .cat a b => [a, b]
  | .not _ a | .shl a _ | .shr a _ | .bits a _ _ => [a]
  | .mux c vars => c :: vars
  | _ => []

theorem cellOut_map {port : String → Nat → Nat} {oob : FVal → List FVal → FVal} {reg : Nat → Nat} {c : Cell} {f : Nat → Nat} {σ σ' : Nat → Nat → FVal}
    {t : Nat} (h : ∀ a ∈ cellArgs c, σ' (f a) = σ a) : cellOut port oob reg (mapCell f c) σ' t = cellOut port oob reg c σ t := by
  cases c with
  | output nm ty s => cases s with
    | none => rfl
    | some s => simp [mapCell, cellOut, h s (by simp [cellArgs])]
  | inst m args =>
    have e : (args.map f).map σ' = args.map σ := by
      rw [List.map_map]
      exact List.map_congr_left fun a ha => h a ha
    simp only [mapCell, cellOut, e]
  | mux c vars =>
    have e : (vars.map f).map (fun v => σ' v t) = vars.map fun v => σ v t := by
      rw [List.map_map]
      exact List.map_congr_left fun a ha => by simp [h a (by simp [cellArgs, ha])]
    have e2 := h c (by simp [cellArgs])
    simp only [mapCell, cellOut, e, e2]
  | and ty a b => simp [mapCell, cellOut, h a (by simp [cellArgs]), h b (by simp [cellArgs])]
  | or ty a b => simp [mapCell, cellOut, h a (by simp [cellArgs]), h b (by simp [cellArgs])]
  | xor ty a b => simp [mapCell, cellOut, h a (by simp [cellArgs]), h b (by simp [cellArgs])]
  | cat a b => simp [mapCell, cellOut, h a (by simp [cellArgs]), h b (by simp [cellArgs])]
  | not ty a => simp [mapCell, cellOut, h a (by simp [cellArgs])]
  | shl a k => simp [mapCell, cellOut, h a (by simp [cellArgs])]
  | shr a k => simp [mapCell, cellOut, h a (by simp [cellArgs])]
  | bits a l r => simp [mapCell, cellOut, h a (by simp [cellArgs])]
  | _ => rfl

theorem mapCell_gone {f : Nat → Nat} {c : Cell} : mapCell f c = .gone ↔ c = .gone := by
  cases c <;> simp [mapCell]

/-- A circuit and a renumbering of its cells compute the same. -/
theorem transport {V : Nat → NodeV} {nodes : List Nat} {cells cells' : Nat → Cell} {size : Nat} {vs : List Nat} (hnd : vs.Nodup)
    (hvs : ∀ v ∈ vs, v < size) (hgone : ∀ v < size, v ∉ vs → cells v = .gone)
    (hargs : ∀ v ∈ vs, ∀ a ∈ cellArgs (cells v), a ∈ vs) (hmap : ∀ v ∈ vs, cells' (vs.idxOf v) = mapCell vs.idxOf (cells v))
    (h : HwComputes V nodes cells size) : HwComputes V nodes cells' vs.length := by
  obtain ⟨wire, delay, h1, h2⟩ := h
  have hget : ∀ i < vs.length, ∃ v ∈ vs, vs.idxOf v = i := fun i hi => ⟨vs[i], List.getElem_mem hi, hnd.idxOf_getElem i hi⟩
  have hin : ∀ v < size, cells v ≠ .gone → v ∈ vs := fun v hv hg => by
    by_contra hn
    exact hg (hgone v hv hn)
  have hw : ∀ n ∈ nodes, (V n).op = .OUT → wire n ∈ vs := fun n hn ho => by
    obtain ⟨h3, s, h4⟩ := h1 n hn ho
    exact hin _ h3 (by rw [h4]; simp)
  refine ⟨fun n => vs.idxOf (wire n), delay, ?_, ?_⟩
  · intro n hn ho
    obtain ⟨h3, s, h4⟩ := h1 n hn ho
    refine ⟨List.idxOf_lt_length_iff.mpr (hw n hn ho), vs.idxOf s, ?_⟩
    rw [hmap _ (hw n hn ho), h4]
    rfl
  · intro port oob reg hp ho
    obtain ⟨⟨σ, hσ⟩, h3⟩ := h2 port oob (fun v => reg (vs.idxOf v)) hp ho
    refine ⟨⟨fun i => σ (vs.getD i 0), ?_⟩, ?_⟩
    · intro i hi hg t
      obtain ⟨v, hv, rfl⟩ := hget i hi
      have hget' : ∀ a ∈ vs, vs.getD (vs.idxOf a) 0 = a := fun a ha => by
        rw [List.getD_eq_getElem?_getD, getElem?_idxOf ha]
        rfl
      rw [hmap v hv] at hg ⊢
      rw [cellOut_map (σ := σ) (fun a ha => by rw [hget' a (hargs v hv a ha)])]
      show _ = some (σ (vs.getD (vs.idxOf v) 0) t)
      rw [hget' v hv]
      exact hσ v (hvs v hv) (fun e => hg (mapCell_gone.mpr e)) t
    · intro σ' hσ' n hn hop t a hs
      refine h3 (fun v => σ' (vs.idxOf v)) ?_ n hn hop t a hs
      intro v hv hg t
      have hvm := hin v hv hg
      have := hσ' (vs.idxOf v) (List.idxOf_lt_length_iff.mpr hvm) (by rw [hmap v hvm]; exact fun e => hg (mapCell_gone.mp e)) t
      rw [hmap v hvm, cellOut_map (σ := fun v => σ' (vs.idxOf v)) (fun a _ => rfl)] at this
      exact this

/-! ### The conversion -/

/-- Two scheduled blocks that differ in the numbers of their values; `vs`: the values of the first in the order of the second. -/
structure Renumbered (ops : List OpInfo) (X : Prog) (lat : Nat → Int) (vs : List Nat) (ops' : List OpInfo) (X' : Prog) (lat' : Nat → Int) : Prop where
  nodup : vs.Nodup
  mem   : ∀ v, v ∈ vs ↔ v < X.size ∧ X.defn v ≠ .erased
  refs  : ∀ v ∈ vs, ∀ r ∈ (X.defn v).refs, r ∈ vs
  down  : LatDown X
  down' : ∀ v ∈ vs, ∀ s n, X.defn v = .latency s n → vs.idxOf s < vs.idxOf v
  size  : X'.size = vs.length
  defn  : ∀ v ∈ vs, X'.defn (vs.idxOf v) = mapDef vs.idxOf (X.defn v)
  same  : ∀ v ∈ vs, (∀ s n, X.defn v ≠ .latency s n) → ∃ o o', ops[v]? = some o ∧ ops'[vs.idxOf v]? = some o' ∧ o'.kind = o.kind ∧ o'.ty = o.ty ∧
    o'.attr = o.attr
  lats  : ∀ v ∈ vs, ∀ o, ops[v]? = some o → (unitOf o.kind).isSome → (∃ args, X.defn v = .node args) → lat' (vs.idxOf v) = lat v

section
variable {ops ops' : List OpInfo} {X X' : Prog} {lat lat' : Nat → Int} {vs : List Nat}

theorem Renumbered.valTyF (h : Renumbered ops X lat vs ops' X' lat') : ∀ (v : Nat), v ∈ vs → ∀ f g, v < f → vs.idxOf v < g →
    valTyF (opTy ops') X' g (vs.idxOf v) = valTyF (opTy ops) X f v := by
  intro v
  induction v using Nat.strongRecOn with
  | _ v ih =>
    intro hv f g hf hg
    obtain ⟨f', rfl⟩ : ∃ f', f = f' + 1 := ⟨f - 1, by omega⟩
    obtain ⟨g', rfl⟩ : ∃ g', g = g' + 1 := ⟨g - 1, by omega⟩
    simp only [Flow.valTyF, h.defn v hv]
    by_cases hl : ∃ s n, X.defn v = .latency s n
    · obtain ⟨s, n, hd⟩ := hl
      simp only [hd, mapDef]
      have h1 := h.down v s n hd
      have h2 := h.down' v hv s n hd
      exact ih s h1 (h.refs v hv s (by rw [hd]; simp [Def.refs])) f' g' (by omega) (by omega)
    · have hl' : ∀ s n, X.defn v ≠ .latency s n := fun s n e => hl ⟨s, n, e⟩
      obtain ⟨o, o', h1, h2, h3, h4, h5⟩ := h.same v hv hl'
      cases hd : X.defn v with
      | latency s n => exact absurd hd (hl' s n)
      | _ => simp [mapDef, opTy, h1, h2, h4]

theorem Renumbered.valTy (h : Renumbered ops X lat vs ops' X' lat') {v : Nat} (hv : v ∈ vs) :
    valTy (opTy ops') X' (vs.idxOf v) = valTy (opTy ops) X v :=
  h.valTyF v hv _ _ (by omega) (by omega)

theorem Renumbered.hwOp (h : Renumbered ops X lat vs ops' X' lat') {v : Nat} (hv : v ∈ vs) :
    hwOpOf ops' X' lat' (vs.idxOf v) = hwOpOf ops X lat v := by
  unfold hwOpOf
  rw [h.defn v hv]
  cases hd : X.defn v with
  | latency s n => simp only [mapDef, h.valTy hv]
  | node args =>
    obtain ⟨o, o', h1, h2, h3, h4, h5⟩ := h.same v hv (by simp [hd])
    simp only [mapDef, h1, h2, h3, h4]
    cases hu : unitOf o.kind with
    | none => rfl
    | some k =>
      have e : (args.map vs.idxOf).map (fun a => hwTy (Flow.valTy (opTy ops') X' a)) = args.map fun a => hwTy (Flow.valTy (opTy ops) X a) := by
        rw [List.map_map]
        refine List.map_congr_left fun a ha => ?_
        have := h.valTy (h.refs v hv a (by rw [hd]; exact ha))
        simp only [Function.comp_apply]
        exact congrArg hwTy this
      simp only [Option.map_some, e, h.lats v hv o h1 (by rw [hu]; rfl) ⟨args, hd⟩]
  | output o => rfl
  | _ => rfl

theorem hwOpOf_erased {v : Nat} (hd : X.defn v = .erased) : hwOpOf ops X lat v = none := by simp [hwOpOf, hd]

/-- The order of the block: the live values as they stand, then the erased ones. -/
def fullOrder (X : Prog) (vs : List Nat) : List Nat := vs ++ (List.range X.size).filter fun v => decide (X.defn v = .erased)

theorem Renumbered.blockOrder (h : Renumbered ops X lat vs ops' X' lat') : BlockOrder X (fullOrder X vs) := by
  refine ⟨List.nodup_append.mpr ⟨h.nodup, List.nodup_range.filter _, ?_⟩, fun v => ?_⟩
  · intro a ha b hb e
    subst e
    exact ((h.mem a).mp ha).2 (by simpa using (List.mem_filter.mp hb).2)
  · unfold fullOrder
    rw [List.mem_append, h.mem, List.mem_filter, List.mem_range]
    by_cases e : X.defn v = .erased <;> simp [e]

theorem lookup_zip_map {β : Type} {f : Nat → Nat} {v : Nat} : ∀ (l : List Nat) (ms : List β), (∀ a ∈ l, f a = f v → a = v) →
    ((l.map f).zip ms).lookup (f v) = (l.zip ms).lookup v
  | [], _, _ => by simp
  | a :: l, [], _ => by simp
  | a :: l, m :: ms, hi => by
    have ih := lookup_zip_map l ms fun b hb => hi b (by simp [hb])
    simp only [List.map_cons, List.zip_cons_cons, List.lookup_cons, ih]
    by_cases e : a = v
    · subst e; simp
    · have e2 : f a ≠ f v := fun e2 => e (hi a (by simp) e2)
      have : (f v == f a) = false := by simpa using fun h => e2 h.symm
      have : (v == a) = false := by simpa using fun h => e h.symm
      simp [*]

theorem Renumbered.lookup (h : Renumbered ops X lat vs ops' X' lat') {v : Nat} (hv : v ∈ vs) :
    (instances ops' X' lat' (List.range X'.size)).lookup (vs.idxOf v) = (instances ops X lat (fullOrder X vs)).lookup v := by
  have e1 : (fullOrder X vs).filterMap (fun v => (hwOpOf ops X lat v).map fun o => (v, o)) =
      vs.filterMap fun v => (hwOpOf ops X lat v).map fun o => (v, o) := by
    unfold fullOrder
    rw [List.filterMap_append]
    have : ((List.range X.size).filter fun v => decide (X.defn v = .erased)).filterMap (fun v => (hwOpOf ops X lat v).map fun o => (v, o)) = [] := by
      rw [List.filterMap_eq_nil_iff]
      intro a ha
      rw [hwOpOf_erased (by simpa using (List.mem_filter.mp ha).2)]
      rfl
    rw [this, List.append_nil]
  have e2 : List.range X'.size = vs.map vs.idxOf := by
    rw [h.size]
    refine List.ext_getElem (by simp) fun i h1 h2 => ?_
    simp only [List.getElem_range, List.getElem_map]
    exact (h.nodup.idxOf_getElem i (by simpa using h2)).symm
  have e3 : (List.range X'.size).filterMap (fun v => (hwOpOf ops' X' lat' v).map fun o => (v, o)) =
      (vs.filterMap fun v => (hwOpOf ops X lat v).map fun o => (v, o)).map fun p => (vs.idxOf p.1, p.2) := by
    rw [e2, List.filterMap_map, List.map_filterMap]
    refine List.filterMap_congr fun a ha => ?_
    simp only [Function.comp_apply]
    rw [h.hwOp ha]
    cases hwOpOf ops X lat a <;> rfl
  unfold instances
  rw [e1, e3]
  simp only [List.map_map]
  have e4 : (Prod.fst ∘ fun p : Nat × HwOp => (vs.idxOf p.1, p.2)) = vs.idxOf ∘ Prod.fst := rfl
  have e5 : (Prod.snd ∘ fun p : Nat × HwOp => (vs.idxOf p.1, p.2)) = Prod.snd := rfl
  rw [e4, e5, ← List.map_map]
  refine lookup_zip_map (f := fun a => vs.idxOf a) _ _ fun a ha e => ?_
  obtain ⟨p, hp, rfl⟩ := List.mem_map.mp ha
  obtain ⟨u, hu, hp⟩ := List.mem_filterMap.mp hp
  have : p.1 ∈ vs := by
    cases ho : hwOpOf ops X lat u <;> simp [ho] at hp
    rw [← hp]
    exact hu
  exact idxOf_inj this e

theorem Renumbered.cell (h : Renumbered ops X lat vs ops' X' lat') {v : Nat} (hv : v ∈ vs) :
    circuitOf ops' X' lat' (List.range X'.size) (vs.idxOf v) = mapCell vs.idxOf (circuitOf ops X lat (fullOrder X vs) v) := by
  unfold circuitOf cellOf
  rw [h.lookup hv, h.defn v hv]
  generalize (instances ops X lat (fullOrder X vs)).lookup v = mo
  cases hd : X.defn v with
  | latency s n => cases mo <;> rfl
  | stream =>
    obtain ⟨⟨k, ty, at1, as⟩, ⟨k', ty', at1', as'⟩, h1, h2, rfl, rfl, rfl⟩ := h.same v hv (by simp [hd])
    simp only [mapDef, h1, h2]
    cases at1' <;> rfl
  | scalar =>
    obtain ⟨⟨k, ty, at1, as⟩, ⟨k', ty', at1', as'⟩, h1, h2, rfl, rfl, rfl⟩ := h.same v hv (by simp [hd])
    simp only [mapDef, h1, h2]
    cases at1' <;> rfl
  | const =>
    obtain ⟨⟨k, ty, at1, as⟩, ⟨k', ty', at1', as'⟩, h1, h2, rfl, rfl, rfl⟩ := h.same v hv (by simp [hd])
    simp only [mapDef, h1, h2]
    cases at1' <;> rfl
  | output s =>
    obtain ⟨⟨k, ty, at1, as⟩, ⟨k', ty', at1', as'⟩, h1, h2, rfl, rfl, rfl⟩ := h.same v hv (by simp [hd])
    simp only [mapDef, h1, h2]
    cases at1' <;> rfl
  | offset s k => rfl
  | erased => rfl
  | node args =>
    obtain ⟨⟨k, ty, at1, as⟩, ⟨k', ty', at1', as'⟩, h1, h2, rfl, rfl, rfl⟩ := h.same v hv (by simp [hd])
    simp only [mapDef, h1, h2]
    have hr : ∀ k, (match unitOf k, mo with | some _, some m => Cell.inst m (args.map vs.idxOf) | _, _ => .gone) =
        mapCell vs.idxOf (match unitOf k, mo with | some _, some m => .inst m args | _, _ => .gone) := by
      intro k
      cases unitOf k <;> cases mo <;> rfl
    have three : ∀ (l : List Nat), l = [] ∨ (∃ a, l = [a]) ∨ (∃ a b, l = [a, b]) ∨ ∃ a b c d, l = a :: b :: c :: d := by
      intro l
      match l with
      | [] => exact .inl rfl
      | [a] => exact .inr (.inl ⟨a, rfl⟩)
      | [a, b] => exact .inr (.inr (.inl ⟨a, b, rfl⟩))
      | a :: b :: c :: d => exact .inr (.inr (.inr ⟨a, b, c, d, rfl⟩))
    have ints : ∀ (l : List Int), l = [] ∨ (∃ a, l = [a]) ∨ (∃ a b, l = [a, b]) ∨ ∃ a b c d, l = a :: b :: c :: d := by
      intro l
      match l with
      | [] => exact .inl rfl
      | [a] => exact .inr (.inl ⟨a, rfl⟩)
      | [a, b] => exact .inr (.inr (.inl ⟨a, b, rfl⟩))
      | a :: b :: c :: d => exact .inr (.inr (.inr ⟨a, b, c, d, rfl⟩))
    rcases three args with rfl | ⟨a, rfl⟩ | ⟨a, b, rfl⟩ | ⟨a, b, c, d, rfl⟩ <;> cases at1' <;> try (cases k' <;> first | rfl | exact hr _)
    all_goals
      rename_i l
      rcases ints l with rfl | ⟨x, rfl⟩ | ⟨x, y, rfl⟩ | ⟨x, y, z, u, rfl⟩ <;> (cases k' <;> first | rfl | exact hr _)

theorem Renumbered.cellArgs (h : Renumbered ops X lat vs ops' X' lat') {v : Nat} {blk : List Nat} :
    ∀ a ∈ cellArgs (circuitOf ops X lat blk v), a ∈ (X.defn v).refs := by
  intro a ha
  unfold circuitOf cellOf at ha
  cases hd : X.defn v with
  | output o =>
    simp only [hd] at ha
    cases o <;> (split at ha <;> simp_all [Sdf.cellArgs, Def.refs])
  | _ =>
    simp only [hd] at ha
    repeat' (split at ha)
    all_goals first
      | (simp [Sdf.cellArgs] at ha; done)
      | (simp [Sdf.cellArgs, Def.refs] at ha ⊢; exact ha)

/-- If the one block's circuit computes the streams of the kernel, so does the other's. -/
theorem Renumbered.computes (h : Renumbered ops X lat vs ops' X' lat') {V : Nat → NodeV} {nodes : List Nat}
    (hc : HwComputes V nodes (circuitOf ops X lat (fullOrder X vs)) X.size) :
    HwComputes V nodes (circuitOf ops' X' lat' (List.range X'.size)) X'.size := by
  rw [show HwComputes V nodes (circuitOf ops' X' lat' (List.range X'.size)) X'.size =
    HwComputes V nodes (circuitOf ops' X' lat' (List.range X'.size)) vs.length by rw [h.size]]
  refine transport h.nodup (fun v hv => ((h.mem v).mp hv).1) ?_ ?_ (fun v hv => h.cell hv) hc
  · intro v hv hn
    have e : X.defn v = .erased := by
      by_contra e
      exact hn ((h.mem v).mpr ⟨hv, e⟩)
    simp [circuitOf, cellOf, e]
  · intro v hv a ha
    exact h.refs v hv a (h.cellArgs a ha)

end

end Verif.Sdf
