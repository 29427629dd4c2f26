import Verif.Sdf.Model
import Mathlib.Data.List.Nodup
import Mathlib.Data.List.Range
/-
The operations of a scheduled block stand after the operations whose values they read.
-/
namespace Verif.Sdf
open Verif.Dfcxx Verif.Flow Verif.Sched Verif.Text

theorem valsOf_cons_val (v : Nat) (ls : List Line) : valsOf (.val v :: ls) = v :: valsOf ls := rfl
theorem valsOf_cons_con (d : Nat) (ls : List Line) : valsOf (.con d :: ls) = valsOf ls := rfl
theorem valsOf_append (a b : List Line) : valsOf (a ++ b) = valsOf a ++ valsOf b := by simp [valsOf, List.filterMap_append]
theorem mem_valsOf {v : Nat} {ls : List Line} : v ∈ valsOf ls ↔ .val v ∈ ls := by
  induction ls with
  | nil => simp [valsOf]
  | cons l ls ih => cases l <;> simp [valsOf_cons_val, valsOf_cons_con, ih]

/-- The values an operation of the block reads. -/
def needs (X : Prog) : Line → List Nat
  | .val v => operandsOf (X.defn v)
  | .con d => d :: (X.defn d).refs

/-- Every operation stands after the operations whose values it reads; `seen`: the values defined before. -/
def Ord (X : Prog) : List Nat → List Line → Prop
  | _, [] => True
  | seen, l :: ls => (∀ r ∈ needs X l, r ∈ seen) ∧ Ord X (seen ++ valsOf [l]) ls

theorem Ord.mono {X : Prog} : ∀ {ls : List Line} {s s' : List Nat}, (∀ r ∈ s, r ∈ s') → Ord X s ls → Ord X s' ls
  | [], _, _, _, _ => trivial
  | l :: ls, s, s', hs, h => ⟨fun r hr => hs r (h.1 r hr), h.2.mono fun r hr => by
      rcases List.mem_append.mp hr with h | h
      · exact List.mem_append.mpr (.inl (hs r h))
      · exact List.mem_append.mpr (.inr h)⟩

/-- The operations read at most one more value, which is defined before. -/
theorem Ord.more {X Y : Prog} {new : Nat} : ∀ {ls : List Line} {s : List Nat}, new ∈ s → (∀ l ∈ ls, ∀ r ∈ needs Y l, r = new ∨ r ∈ needs X l) →
    Ord X s ls → Ord Y s ls
  | [], _, _, _, _ => trivial
  | l :: ls, s, hn, hs, h => by
    refine ⟨fun r hr => ?_, Ord.more (List.mem_append.mpr (.inl hn)) (fun l hl => hs l (by simp [hl])) h.2⟩
    rcases hs l (by simp) r hr with rfl | h'
    · exact hn
    · exact h.1 r h'

/-- Insertion of an operation before the one that reads its value. -/
theorem Ord.insert {X Y : Prog} {new : Nat} {x : Line} : ∀ {ls : List Line} {s : List Nat},
    (∀ l ∈ ls, l ≠ x → needs Y l = needs X l) → (∀ r ∈ needs Y x, r = new ∨ r ∈ needs X x) → (∀ r ∈ needs Y (.val new), r ∈ needs X x) →
    Ord X s ls → Ord Y s (before x (.val new) ls)
  | [], _, _, _, _, _ => trivial
  | l :: ls, s, h1, h2, h3, h => by
    unfold before
    split
    · rename_i e
      subst e
      have hmore : ∀ l' ∈ l :: ls, ∀ r ∈ needs Y l', r = new ∨ r ∈ needs X l' := by
        intro l' hl' r hr
        by_cases e : l' = l
        · subst e; exact h2 r hr
        · rw [h1 l' hl' e] at hr; exact .inr hr
      refine ⟨fun r hr => h.1 r (h3 r hr), ?_⟩
      exact Ord.more (by simp [valsOf]) hmore (h.mono fun r hr => List.mem_append.mpr (.inl hr))
    · rename_i e
      exact ⟨fun r hr => h.1 r (by rwa [h1 l (by simp) e] at hr), Ord.insert (fun l' hl' => h1 l' (by simp [hl'])) h2 h3 h.2⟩

/-- Operand `p` replaced by `q`, which stands before `p`. -/
theorem Ord.replace {X Y : Prog} {p q : Nat} : ∀ {ls : List Line} {s : List Nat},
    (∀ l ∈ ls, l ≠ .val p → ∀ r ∈ needs Y l, r = q ∧ p ∈ needs X l ∨ r ∈ needs X l) → (.val p ∈ ls → q ∈ needs X (.val p) ∧ needs Y (.val p) = []) →
    (p ∈ s → q ∈ s) → Ord X s ls → Ord Y s ls
  | [], _, _, _, _, _ => trivial
  | l :: ls, s, h1, h2, h3, h => by
    refine ⟨fun r hr => ?_, Ord.replace (fun l hl => h1 l (by simp [hl])) (fun hp => h2 (by simp [hp])) ?_ h.2⟩
    · by_cases e : l = .val p
      · subst e
        rw [(h2 (by simp)).2] at hr
        cases hr
      · rcases h1 l (by simp) e r hr with ⟨rfl, hp⟩ | h'
        · exact h3 (h.1 p hp)
        · exact h.1 r h'
    · intro hp
      rcases List.mem_append.mp hp with hp | hp
      · exact List.mem_append.mpr (.inl (h3 hp))
      · have e : l = .val p := by
          cases l with
          | val v => simp [valsOf] at hp; rw [hp]
          | con d => simp [valsOf] at hp
        subst e
        exact List.mem_append.mpr (.inl (h.1 q (h2 (by simp)).1))

/-- Erasing operations whose values nobody reads. -/
theorem Ord.filter {X : Prog} : ∀ {ls : List Line} {s : List Nat}, (∀ l ∈ ls, alive X l = true → ∀ r ∈ needs X l, X.defn r ≠ .erased) →
    Ord X s ls → Ord X (s.filter fun v => decide (X.defn v ≠ .erased)) (ls.filter (alive X))
  | [], _, _, _ => trivial
  | l :: ls, s, h1, h => by
    have ih := Ord.filter (fun l hl => h1 l (by simp [hl])) h.2
    rw [List.filter_append] at ih
    by_cases ha : alive X l = true
    · rw [List.filter_cons_of_pos ha]
      refine ⟨fun r hr => List.mem_filter.mpr ⟨h.1 r hr, by simpa using h1 l (by simp) ha r hr⟩, ?_⟩
      have e : (valsOf [l]).filter (fun v => decide (X.defn v ≠ .erased)) = valsOf [l] := by
        cases l with
        | val v => simp only [valsOf_cons_val]; rw [List.filter_cons_of_pos (by simpa [alive] using ha)]; rfl
        | con d => rfl
      rwa [e] at ih
    · rw [List.filter_cons_of_neg ha]
      have e : (valsOf [l]).filter (fun v => decide (X.defn v ≠ .erased)) = [] := by
        cases l with
        | val v => simp only [valsOf_cons_val]; rw [List.filter_cons_of_neg (by simpa [alive] using ha)]; rfl
        | con d => rfl
      rwa [e, List.append_nil] at ih

/-! ### `before` -/

theorem mem_before {x y l : Line} : ∀ {ls : List Line}, l ∈ ls → l ∈ before x y ls
  | a :: ls, h => by
    unfold before
    split
    · exact List.mem_cons_of_mem _ h
    · rcases List.mem_cons.mp h with rfl | h
      · simp
      · exact List.mem_cons_of_mem _ (mem_before h)

theorem of_mem_before {x y l : Line} : ∀ {ls : List Line}, l ∈ before x y ls → l = y ∨ l ∈ ls
  | [], h => by simp [before] at h
  | a :: ls, h => by
    unfold before at h
    split at h
    · rcases List.mem_cons.mp h with rfl | h
      · exact .inl rfl
      · exact .inr h
    · rcases List.mem_cons.mp h with rfl | h
      · simp
      · rcases of_mem_before h with h | h
        · exact .inl h
        · exact .inr (List.mem_cons_of_mem _ h)

theorem vals_before {x : Line} {new : Nat} : ∀ {ls : List Line}, x ∈ ls → (valsOf (before x (.val new) ls)).Perm (new :: valsOf ls)
  | a :: ls, h => by
    unfold before
    split
    · exact .refl _
    · rename_i e
      have h' : x ∈ ls := by
        rcases List.mem_cons.mp h with rfl | h
        · exact absurd rfl e
        · exact h
      have ih := vals_before (new := new) h'
      cases a with
      | val v => exact (ih.cons v).trans (List.Perm.swap _ _ _)
      | con d => exact ih

/-! ### The block before scheduling -/

theorem valsOf_linesFrom : ∀ (k : Nat) (prog : List DStmt), valsOf (linesFrom k prog) = List.range' k (opsOf prog).length
  | _, [] => rfl
  | k, .op _ _ _ _ :: r => by
    have ih := valsOf_linesFrom (k + 1) r
    simp only [linesFrom, valsOf_cons_val, ih]
    show _ = List.range' k ((opsOf r).length + 1)
    rw [List.range'_succ]
  | k, .connect d _ :: r => by
    have ih := valsOf_linesFrom k r
    simp only [linesFrom, valsOf_cons_con, ih]
    rfl

/-- Connections stand after the outputs they feed; `k`: number of the next value. -/
def ConnsOK : Nat → List DStmt → Prop
  | _, [] => True
  | k, .op _ _ _ _ :: r => ConnsOK (k + 1) r
  | k, .connect d _ :: r => d < k ∧ ConnsOK k r

theorem ord_linesFrom {P : Prog} (hP : WF P) : ∀ (prog : List DStmt) (k : Nat), k + (opsOf prog).length ≤ P.size → ConnsOK k prog →
    Ord P (List.range k) (linesFrom k prog)
  | [], _, _, _ => trivial
  | .op a b c d :: r, k, hk, hc => by
    have hl : (opsOf (.op a b c d :: r)).length = (opsOf r).length + 1 := rfl
    rw [hl] at hk
    refine ⟨fun x hx => ?_, ?_⟩
    · refine List.mem_range.mpr (hP.refs k (by omega) x ?_)
      simp only [needs] at hx
      cases hd : P.defn k <;> rw [hd] at hx <;> simp [operandsOf] at hx <;> simp [Def.refs, hx]
    · have := ord_linesFrom hP r (k + 1) (by omega) hc
      rw [List.range_succ] at this
      exact this
  | .connect d s :: r, k, hk, hc => by
    have hl : (opsOf (.connect d s :: r)).length = (opsOf r).length := rfl
    rw [hl] at hk
    refine ⟨fun x hx => ?_, by simpa [valsOf] using ord_linesFrom hP r k (by omega) hc.2⟩
    have hdk := hc.1
    rcases List.mem_cons.mp hx with rfl | hx
    · exact List.mem_range.mpr hdk
    · have := hP.refs d (by omega) x hx
      exact List.mem_range.mpr (by omega)

theorem linesFrom_con {d : Nat} : ∀ (prog : List DStmt) (k : Nat), .con d ∈ linesFrom k prog ↔ ∃ s, .connect d s ∈ prog
  | [], _ => by simp [linesFrom]
  | .op _ _ _ _ :: r, k => by simp [linesFrom, linesFrom_con r (k + 1)]
  | .connect d' s' :: r, k => by
    simp only [linesFrom, List.mem_cons, Line.con.injEq, linesFrom_con r k, DStmt.connect.injEq]
    constructor
    · rintro (rfl | ⟨s, h⟩)
      · exact ⟨s', .inl ⟨rfl, rfl⟩⟩
      · exact ⟨s, .inr h⟩
    · rintro ⟨s, ⟨rfl, -⟩ | h⟩
      · exact .inl rfl
      · exact .inr ⟨s, h⟩

theorem connectedTo_isSome {prog : List DStmt} {d : Nat} : (connectedTo prog d).isSome ↔ ∃ s, .connect d s ∈ prog := by
  unfold connectedTo
  rw [List.findSome?_isSome_iff]
  constructor
  · rintro ⟨x, hx, h⟩
    cases x with
    | op => simp at h
    | connect d' s =>
      by_cases e : d' = d
      · subst e; exact ⟨s, hx⟩
      · simp [e] at h
  · rintro ⟨s, h⟩
    exact ⟨_, h, by simp⟩

theorem connsOK_append : ∀ (a b : List DStmt) (k : Nat), ConnsOK k a → ConnsOK (k + (opsOf a).length) b → ConnsOK k (a ++ b)
  | [], _, _, _, h => h
  | .op _ _ _ _ :: a, b, k, h1, h2 => connsOK_append a b (k + 1) h1 (by
      have : k + 1 + (opsOf a).length = k + ((opsOf a).length + 1) := by omega
      rw [this]; exact h2)
  | .connect _ _ :: a, b, k, h1, h2 => ⟨h1.1, connsOK_append a b k h1.2 h2⟩

theorem block_connsOK {V : Nat → NodeV} {order : List Nat} (hnd : order.Nodup) : ConnsOK 0 (block V order) := by
  have key : ∀ q p, order = p ++ q → ConnsOK p.length (q.flatMap (exactStmts V order.idxOf)) := by
    intro q
    induction q with
    | nil => intro p _; trivial
    | cons n q ih =>
      intro p he
      rw [List.flatMap_cons]
      have hin : order.idxOf n = p.length := by
        rw [he] at hnd ⊢
        have : n ∉ p := fun h => (List.disjoint_of_nodup_append hnd) h (by simp)
        simp [List.idxOf_append, this]
      refine connsOK_append _ _ _ ?_ ?_
      · unfold exactStmts exactStmt
        cases getConnection (V n) with
        | none => trivial
        | some s => exact ⟨by show order.idxOf n < _; rw [hin]; omega, trivial⟩
      · rw [opsOf_exact]
        have := ih (p ++ [n]) (by simp [he])
        simpa using this
  exact key order [] rfl

end Verif.Sdf
