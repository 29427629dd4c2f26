import Verif.Dfcxx.SimLemmas
import Verif.TopSort.Props
/- Properties C13, C14, C15, C18 of the simulator. -/
namespace Verif.Dfcxx
open TopSort (Before)

/-! ### Auxiliary facts -/

theorem before_append_right {l l' : List Nat} {a b : Nat} (h : Before l a b) : Before (l ++ l') a b := by
  obtain ⟨l1, l2, l3, rfl⟩ := h
  exact ⟨l1, l2, l3 ++ l', by simp⟩

theorem before_mem_left {l : List Nat} {a b : Nat} (h : Before l a b) : a ∈ l := by
  obtain ⟨l1, l2, l3, rfl⟩ := h; simp

/-- In a duplicate-free list, what comes before `b` is in the prefix up to `b`. -/
theorem before_prefix {pre post : List Nat} {a b : Nat} (hn : (pre ++ b :: post).Nodup)
    (h : Before (pre ++ b :: post) a b) : a ∈ pre := by
  induction pre with
  | nil =>
    obtain ⟨l1, l2, l3, he⟩ := h
    have hb : b ∉ post := (List.nodup_cons.1 (by simpa using hn)).1
    rcases l1 with _ | ⟨x, l1⟩
    · simp at he; obtain ⟨rfl, rfl⟩ := he; simp at hb
    · simp at he; obtain ⟨rfl, rfl⟩ := he; simp at hb
  | cons x pre ih =>
    by_cases hax : a = x
    · simp [hax]
    · obtain ⟨l1, l2, l3, he⟩ := h
      rcases l1 with _ | ⟨y, l1⟩
      · simp at he; exact absurd he.1.symm hax
      · simp only [List.cons_append, List.cons.injEq] at he
        have hn' : (pre ++ b :: post).Nodup := (List.nodup_cons.1 (by simpa using hn)).2
        exact List.mem_cons_of_mem _ (ih hn' ⟨l1, l2, l3, he.2⟩)

theorem denotes_unique_aux (F : FloatOps) (V : Nat → NodeV) (inp : TickIn)
    (hm : ∀ n args v w, Means F (V n) inp args v → Means F (V n) inp args w → v = w)
    {n : Nat} {v : Word} (h : Denotes F V inp n v) : ∀ w, Denotes F V inp n w → v = w := by
  induction h with
  | node n val v hargs hv ih =>
    intro w hw
    cases hw with
    | node _ val' _ hargs' hv' =>
      have : (V n).srcs.map val = (V n).srcs.map val' :=
        List.map_congr_left fun s hs => ih s hs _ (hargs' s hs)
      rw [this] at hv
      exact hm _ _ _ _ hv hv'

/-- The meaning of a node is a function of its operands. -/
theorem means_functional (F : FloatOps) (n : NodeV) (inp : TickIn) (args : List Word) (v w : Word)
    (hv : Means F n inp args v) (hw : Means F n inp args w) : v = w := by
  have bl : ∀ {p : Prop}, IsBool v p → IsBool w p → v = w := by
    intro p h1 h2; by_cases hp : p
    · rw [h1.1 hp, h2.1 hp]
    · rw [h1.2 hp, h2.2 hp]
  have un : ∀ {r}, IsUnsigned v r → IsUnsigned w r → v = w := by
    intro r h1 h2; apply BitVec.eq_of_toNat_eq; unfold IsUnsigned at *; omega
  have sg : ∀ {r}, IsSigned v r → IsSigned w r → v = w := by
    intro r h1 h2; apply BitVec.eq_of_toInt_eq; unfold IsSigned at *; omega
  have bits : ∀ {f : Nat → Bool}, (∀ i, v.getLsbD i = f i) → (∀ i, w.getLsbD i = f i) → v = w := by
    intro f h1 h2; apply BitVec.eq_of_getLsbD_eq; intro i _; rw [h1, h2]
  rcases n with ⟨op, data, ty, kind, name, ins⟩
  cases op <;> rcases args with _ | ⟨a, _ | ⟨b, t⟩⟩ <;> rcases ty with ⟨_ | _, _, _⟩ | _ | _ <;>
    simp only [Means] at hv hw
  all_goals first
    | exact un hv hw
    | exact sg hv hw
    | exact bl hv hw
    | exact bits hv hw
    | exact sg hv.2 hw.2
    | (rw [hv, hw]; done)
    | (rw [hv] at hw; simpa using hw)
    | exact BitVec.eq_of_toNat_eq (hv.2.trans hw.2.symm)
    | (apply BitVec.eq_of_getLsbD_eq; intro i hi; rw [hv i hi, hw i hi]; done)
    | (obtain ⟨k, h1, _, h2⟩ := hv; obtain ⟨k', h1', _, h2'⟩ := hw
       rw [h1] at h1'; cases h1'; exact BitVec.eq_of_toNat_eq (h2.trans h2'.symm))
    | (obtain ⟨_, s, al, h1, h2⟩ := hv; obtain ⟨_, s', al', h3, h4⟩ := hw
       rw [h1] at h3; cases h3; rw [h2] at h4; simpa using h4)
    | exact hv.elim

/-- The dataflow value of a node on a tick is unique. -/
theorem denotes_unique (F : FloatOps) (V : Nat → NodeV) (inp : TickIn) {n : Nat} {v w : Word}
    (h : Denotes F V inp n v) (h' : Denotes F V inp n w) : v = w :=
  denotes_unique_aux F V inp (fun n => means_functional F (V n) inp) h w h'

/-! ### One tick -/

/-- Invariant: the nodes processed so far hold their dataflow value. -/
theorem runSim_sound_aux (F : FloatOps) (V : Nat → NodeV) (inp : TickIn)
    :
    ∀ (rest pre : List Nat) (vals vals' : Vals),
      TopoOrder V (pre ++ rest) → (∀ n ∈ pre ++ rest, (V n).Shape) →
      (∀ n ∈ pre, Denotes F V inp n (rd vals n)) →
      (∀ n ∈ pre ++ rest, ∀ f : Nat → Word, (∀ s ∈ (V n).srcs, Denotes F V inp s (f s)) →
          ¬ MuxWraps (V n) ((V n).srcs.map f)) →
      runSim F V rest vals inp = .done vals' →
      (∀ n ∈ pre ++ rest, Denotes F V inp n (rd vals' n)) ∧ (∀ n, n ∉ rest → vals' n = vals n) := by
  intro rest
  induction rest with
  | nil =>
    intro pre vals vals' _ _ hp _ h
    simp only [runSim] at h; cases h
    simpa using hp
  | cons n rest ih =>
    intro pre vals vals' ht hs hp hw h
    simp only [runSim] at h
    have hsrc : ∀ s ∈ (V n).srcs, Denotes F V inp s (rd vals s) := by
      intro s hs'
      exact hp s (before_prefix ht.nodup (ht.before n (by simp) s hs'))
    have hnpre : n ∉ pre := by
      intro hn
      have := List.nodup_append.1 ht.nodup
      exact this.2.2 n hn n (by simp) rfl
    cases hpo : processOp F (V n) inp ((V n).srcs.map (rd vals)) with
    | val v =>
      rw [hpo] at h; simp only at h
      have hm := (processOp_iff_means F (V n) (hs n (by simp)) inp _ (by simp [NodeV.srcs])
        (hw n (by simp) (rd vals) hsrc) v).1 hpo
      have hden : Denotes F V inp n v := .node n (rd vals) v hsrc hm
      have := ih (pre ++ [n]) (wr vals n v) vals' (by simpa using ht) (by simpa using hs)
        (by
          intro m hm'
          simp only [List.mem_append, List.mem_singleton] at hm'
          by_cases hmn : m = n
          · subst hmn; simpa [rd, wr] using hden
          · rcases hm' with hm' | hm'
            · have := hp m hm'; simpa [rd, wr, hmn] using this
            · exact absurd hm' hmn)
        (by simpa using hw) h
      refine ⟨by simpa using this.1, ?_⟩
      intro m hm'
      simp only [List.mem_cons, not_or] at hm'
      rw [this.2 m hm'.2]; simp [wr, hm'.1]
    | unsupported => rw [hpo] at h; cases h
    | fault f => rw [hpo] at h; cases h

/-- No multiplexer's select denotes the all-ones word (the one out-of-range select for which the simulator
does not read out of bounds but returns the select itself, simulator.cpp:71-72). -/
def NoWrap (F : FloatOps) (V : Nat → NodeV) (inp : TickIn) (order : List Nat) : Prop :=
  ∀ n ∈ order, (V n).op = .MUX → ∀ s, (V n).srcs.head? = some s →
    ¬ Denotes F V inp s (BitVec.allOnes 64)

theorem noWrap_aux {F : FloatOps} {V : Nat → NodeV} {inp : TickIn} {order : List Nat}
    (h : NoWrap F V inp order) : ∀ n ∈ order, ∀ f : Nat → Word,
      (∀ s ∈ (V n).srcs, Denotes F V inp s (f s)) → ¬ MuxWraps (V n) ((V n).srcs.map f) := by
  rintro n hn f hf ⟨hop, hh⟩
  cases hs : (V n).srcs with
  | nil => rw [hs] at hh; simp at hh
  | cons s l =>
    rw [hs] at hh
    simp only [List.map_cons, List.head?_cons, Option.some.injEq] at hh
    refine h n hn hop s (by simp [hs]) ?_
    rw [← hh]; exact hf s (by simp [hs])

/-- **C13.**  If a tick completes, then every node of the graph holds the value of the expression rooted at it
on this tick's inputs -- whatever the value table contained before (values of earlier ticks included). -/
theorem runSim_computes_dataflow (F : FloatOps) (V : Nat → NodeV) (order : List Nat) (inp : TickIn)
    (vals vals' : Vals) (ht : TopoOrder V order) (hs : ∀ n ∈ order, (V n).Shape)
    (hw : NoWrap F V inp order) (h : runSim F V order vals inp = .done vals') :
    ∀ n ∈ order, ∃ v, vals' n = some v ∧ Denotes F V inp n v := by
  have key := (runSim_sound_aux F V inp order [] vals vals' (by simpa using ht)
    (by simpa using hs) (by simp) (by simpa using noWrap_aux hw) h).1
  intro n hn
  refine ⟨rd vals' n, ?_, by simpa using key n (by simpa using hn)⟩
  -- the entry has been written
  have : ∀ (l : List Nat) (vals vals' : Vals), runSim F V l vals inp = .done vals' →
      ∀ m, (m ∈ l ∨ vals m ≠ none) → vals' m ≠ none := by
    intro l
    induction l with
    | nil => intro vals vals' h m hm; simp only [runSim] at h; cases h; simpa using hm
    | cons a l ih =>
      intro vals vals' h m hm
      simp only [runSim] at h
      split at h
      · refine ih _ _ h m ?_
        rcases hm with hm | hm
        · rcases List.mem_cons.1 hm with rfl | hm
          · right; simp [wr]
          · exact .inl hm
        · right; unfold wr; split <;> simp_all
      · cases h
      · cases h
  have hne := this order vals vals' h n (.inl hn)
  obtain ⟨v, hv⟩ := Option.ne_none_iff_exists'.1 hne
  simp [rd, hv]

/-- **C13, completeness.**  If the expression of every node has a value on this tick (no division by zero,
overflow, out-of-range select or shift, missing input), the tick completes. -/
theorem runSim_completes (F : FloatOps) (V : Nat → NodeV) (order : List Nat) (inp : TickIn)
    (vals : Vals) (ht : TopoOrder V order) (hs : ∀ n ∈ order, (V n).Shape)
    (hw : NoWrap F V inp order) (hd : ∀ n ∈ order, ∃ v, Denotes F V inp n v) :
    ∃ vals', runSim F V order vals inp = .done vals' := by
  have : ∀ (rest pre : List Nat) (vals : Vals), TopoOrder V (pre ++ rest) →
      (∀ n ∈ pre ++ rest, (V n).Shape) → (∀ n ∈ pre, Denotes F V inp n (rd vals n)) →
      (∀ n ∈ pre ++ rest, ∃ v, Denotes F V inp n v) →
      (∀ n ∈ pre ++ rest, ∀ f : Nat → Word, (∀ s ∈ (V n).srcs, Denotes F V inp s (f s)) →
          ¬ MuxWraps (V n) ((V n).srcs.map f)) →
      ∃ vals', runSim F V rest vals inp = .done vals' := by
    intro rest
    induction rest with
    | nil => intro pre vals _ _ _ _ _; exact ⟨vals, rfl⟩
    | cons n rest ih =>
      intro pre vals ht hs hp hd hw
      have hsrc : ∀ s ∈ (V n).srcs, Denotes F V inp s (rd vals s) := by
        intro s hs'
        exact hp s (before_prefix ht.nodup (ht.before n (by simp) s hs'))
      obtain ⟨v, hv⟩ := hd n (by simp)
      have hm : Means F (V n) inp ((V n).srcs.map (rd vals)) v := by
        cases hv with
        | node _ val _ hargs hv =>
          have : (V n).srcs.map val = (V n).srcs.map (rd vals) :=
            List.map_congr_left fun s hs => denotes_unique F V inp (hargs s hs) (hsrc s hs)
          rwa [this] at hv
      have hpo := (processOp_iff_means F (V n) (hs n (by simp)) inp _ (by simp [NodeV.srcs])
        (hw n (by simp) (rd vals) hsrc) v).2 hm
      simp only [runSim, hpo]
      refine ih (pre ++ [n]) (wr vals n v) (by simpa using ht) (by simpa using hs) ?_ (by simpa using hd)
        (by simpa using hw)
      intro m hm'
      simp only [List.mem_append, List.mem_singleton] at hm'
      by_cases hmn : m = n
      · subst hmn; simpa [rd, wr] using hv
      · rcases hm' with hm' | hm'
        · have := hp m hm'; simpa [rd, wr, hmn] using this
        · exact absurd hm' hmn
  simpa using this order [] vals (by simpa using ht) (by simpa using hs) (by simp) (by simpa using hd)
    (by simpa using noWrap_aux hw)

/-- **C14.**  Two valid processing orders of the same nodes give the same values (and one completes iff the
other does), starting from any two tables. -/
theorem runSim_order_independent (F : FloatOps) (V : Nat → NodeV) (o₁ o₂ : List Nat) (inp : TickIn)
    (vals₁ vals₂ vals₁' : Vals) (hp : o₁.Perm o₂) (h₁ : TopoOrder V o₁) (h₂ : TopoOrder V o₂)
    (hs : ∀ n ∈ o₁, (V n).Shape) (hw : NoWrap F V inp o₁)
    (h : runSim F V o₁ vals₁ inp = .done vals₁') :
    ∃ vals₂', runSim F V o₂ vals₂ inp = .done vals₂' ∧ ∀ n ∈ o₁, vals₁' n = vals₂' n := by
  have d₁ := runSim_computes_dataflow F V o₁ inp vals₁ vals₁' h₁ hs hw h
  have hs₂ : ∀ n ∈ o₂, (V n).Shape := fun n hn => hs n (hp.mem_iff.2 hn)
  have hw₂ : NoWrap F V inp o₂ := fun n hn => hw n (hp.mem_iff.2 hn)
  obtain ⟨vals₂', hr⟩ := runSim_completes F V o₂ inp vals₂ h₂ hs₂ hw₂
    (fun n hn => by obtain ⟨v, _, hv⟩ := d₁ n (hp.mem_iff.2 hn); exact ⟨v, hv⟩)
  have d₂ := runSim_computes_dataflow F V o₂ inp vals₂ vals₂' h₂ hs₂ hw₂ hr
  refine ⟨vals₂', hr, ?_⟩
  intro n hn
  obtain ⟨v, h1, h2⟩ := d₁ n hn
  obtain ⟨w, h3, h4⟩ := d₂ n (hp.mem_iff.1 hn)
  rw [h1, h3, denotes_unique F V inp h2 h4]

/-- **C13 over time.**  In a whole simulation, the table dumped at tick `t` holds the dataflow values for the
inputs of tick `t` alone. -/
theorem runTicks_computes_dataflow (F : FloatOps) (V : Nat → NodeV) (order : List Nat)
    (ht : TopoOrder V order) (hs : ∀ n ∈ order, (V n).Shape) (ticks : List TickIn)
    (hw : ∀ inp ∈ ticks, NoWrap F V inp order) (vals : Vals) (out : List Vals)
    (h : runTicks F V order vals ticks = .ok (some out)) :
    out.length = ticks.length ∧
    ∀ (t : Nat) (inp : TickIn) (tbl : Vals), ticks[t]? = some inp → out[t]? = some tbl →
      ∀ n ∈ order, ∃ v, tbl n = some v ∧ Denotes F V inp n v := by
  induction ticks generalizing vals out with
  | nil => simp only [runTicks] at h; cases h; simp
  | cons i ticks ih =>
    simp only [runTicks] at h
    cases hr : runSim F V order vals i with
    | done vals' =>
      rw [hr] at h; simp only at h
      cases hr2 : runTicks F V order vals' ticks with
      | error f => rw [hr2] at h; cases h
      | ok o =>
        cases o with
        | none => rw [hr2] at h; cases h
        | some l =>
          rw [hr2] at h; simp only at h; cases h
          obtain ⟨h1, h2⟩ := ih (fun inp hi => hw inp (by simp [hi])) vals' l hr2
          refine ⟨by simp [h1], ?_⟩
          intro t inp tbl htick hout
          cases t with
          | zero =>
            simp only [List.getElem?_cons_zero, Option.some.injEq] at htick hout
            subst htick hout
            exact runSim_computes_dataflow F V order i vals vals' ht hs (hw i (by simp)) hr
          | succ t => exact h2 t inp tbl (by simpa using htick) (by simpa using hout)
    | failed => rw [hr] at h; cases h
    | fault f => rw [hr] at h; cases h

/-- **C15.**  A tick reports failure only if the graph contains an unsupported node; and a graph containing
one never completes a tick. -/
theorem runSim_failure_iff_unsupported (F : FloatOps) (V : Nat → NodeV) (order : List Nat) (inp : TickIn)
    (vals : Vals) :
    (runSim F V order vals inp = .failed → ∃ n ∈ order, Unsupported (V n)) ∧
    ((∃ n ∈ order, Unsupported (V n)) → ∀ vals', runSim F V order vals inp ≠ .done vals') := by
  constructor
  · intro h
    induction order generalizing vals with
    | nil => cases h
    | cons n rest ih =>
      simp only [runSim] at h
      split at h
      · obtain ⟨m, hm, hu⟩ := ih _ h
        exact ⟨m, by simp [hm], hu⟩
      · rename_i hp
        exact ⟨n, by simp, (processOp_unsupported_iff F (V n) inp _).1 hp⟩
      · cases h
  · rintro ⟨n, hn, hu⟩ vals'
    induction order generalizing vals with
    | nil => simp at hn
    | cons m rest ih =>
      simp only [runSim]
      rcases List.mem_cons.1 hn with rfl | hn
      · rw [(processOp_unsupported_iff F (V n) inp _).2 hu]; simp
      · split
        · exact ih _ hn
        · simp
        · simp

/-- C15 for graphs on which no fault can occur: the outcome is failure exactly when a node is unsupported. -/
theorem runSim_failed_iff (F : FloatOps) (V : Nat → NodeV) (order : List Nat) (inp : TickIn) (vals : Vals)
    (hnf : ∀ f, runSim F V order vals inp ≠ .fault f) :
    runSim F V order vals inp = .failed ↔ ∃ n ∈ order, Unsupported (V n) := by
  have h := runSim_failure_iff_unsupported F V order inp vals
  refine ⟨h.1, fun hu => ?_⟩
  cases hr : runSim F V order vals inp with
  | done v => exact absurd hr (h.2 hu v)
  | failed => rfl
  | fault f => exact absurd hr (hnf f)

/-- **C18.**  A multiplexer with alternatives `alts` and select value `s < alts.length` outputs alternative
`s`; for any other select except the all-ones word the access is out of bounds.  (A list of 2^64 or more
alternatives cannot exist in memory.) -/
theorem mux_selects (F : FloatOps) (n : NodeV) (hop : n.op = .MUX) (hd : n.data = .muxId 0)
    (inp : TickIn) (sel : Word) (alts : List Word) (hlen : alts.length < 2^64) :
    (∀ h : sel.toNat < alts.length, processOp F n inp (sel :: alts) = .val alts[sel.toNat]) ∧
    (alts.length ≤ sel.toNat → sel ≠ BitVec.allOnes 64 → processOp F n inp (sel :: alts) = .fault .ub) := by
  constructor
  · intro h
    have hs : sel ≠ BitVec.allOnes 64 := by
      rintro rfl; simp at h; omega
    simp only [processOp, hop, hd, List.getElem?_cons_zero, add_one_toNat hs, List.getElem?_cons_succ,
      List.getElem?_eq_getElem h]
  · intro h hs
    simp only [processOp, hop, hd, List.getElem?_cons_zero, add_one_toNat hs, List.getElem?_cons_succ,
      List.getElem?_eq_none h]

/-- The remaining corner of C18: an all-ones 64-bit select makes the simulator return the select itself. -/
theorem mux_allOnes_returns_select (F : FloatOps) (n : NodeV) (hop : n.op = .MUX) (hd : n.data = .muxId 0)
    (inp : TickIn) (alts : List Word) :
    processOp F n inp (BitVec.allOnes 64 :: alts) = .val (BitVec.allOnes 64) := by
  have : (BitVec.allOnes 64 + 1 : Word).toNat = 0 := by decide
  simp only [processOp, hop, hd, List.getElem?_cons_zero, this]

/-! ### The hypotheses are met by a non-trivial graph

`y = mux(s, (a + b, a - b))`: nodes 0:a 1:b 2:s 3:add 4:sub 5:mux 6:out. -/

def exV : Nat → NodeV
  | 0 => { op := .IN, data := .none, ty := .fixed false 8 0, kind := .stream, name := "a", ins := [] }
  | 1 => { op := .IN, data := .none, ty := .fixed false 8 0, kind := .stream, name := "b", ins := [] }
  | 2 => { op := .IN, data := .none, ty := .fixed false 1 0, kind := .stream, name := "s", ins := [] }
  | 3 => { op := .ADD, data := .none, ty := .fixed false 8 0, kind := .stream, name := "", ins := [(0, false), (1, false)] }
  | 4 => { op := .SUB, data := .none, ty := .fixed false 8 0, kind := .stream, name := "", ins := [(0, false), (1, false)] }
  | 5 => { op := .MUX, data := .muxId 0, ty := .fixed false 8 0, kind := .stream, name := "", ins := [(2, false), (3, false), (4, false)] }
  | _ => { op := .OUT, data := .none, ty := .fixed false 8 0, kind := .stream, name := "y", ins := [(5, true)] }

def exIn : TickIn := fun s => if s = "a" then .ok 5 else if s = "b" then .ok 7 else if s = "s" then .ok 1 else .error .throw

theorem exOrder : TopoOrder exV [2, 0, 1, 4, 3, 5, 6] where
  nodup := by decide
  before := by
    intro n hn s hs
    simp only [List.mem_cons, List.not_mem_nil, or_false] at hn
    rcases hn with rfl | rfl | rfl | rfl | rfl | rfl | rfl <;>
      simp [exV, NodeV.srcs] at hs
    · rcases hs with rfl | rfl
      · exact ⟨[2], [1], [3, 5, 6], rfl⟩
      · exact ⟨[2, 0], [], [3, 5, 6], rfl⟩
    · rcases hs with rfl | rfl
      · exact ⟨[2], [1, 4], [5, 6], rfl⟩
      · exact ⟨[2, 0], [4], [5, 6], rfl⟩
    · rcases hs with rfl | rfl | rfl
      · exact ⟨[], [0, 1, 4, 3], [6], rfl⟩
      · exact ⟨[2, 0, 1, 4], [], [6], rfl⟩
      · exact ⟨[2, 0, 1], [3], [6], rfl⟩
    · subst hs; exact ⟨[2, 0, 1, 4, 3], [], [], rfl⟩

theorem exShape : ∀ n ∈ [2, 0, 1, 4, 3, 5, 6], (exV n).Shape := by
  intro n hn
  simp only [List.mem_cons, List.not_mem_nil, or_false] at hn
  rcases hn with rfl | rfl | rfl | rfl | rfl | rfl | rfl <;>
    constructor <;> simp [exV, OpType.isComparison]

theorem exNoWrap (F : FloatOps) : NoWrap F exV exIn [2, 0, 1, 4, 3, 5, 6] := by
  intro n hn hop s hs hd
  simp only [List.mem_cons, List.not_mem_nil, or_false] at hn
  rcases hn with rfl | rfl | rfl | rfl | rfl | rfl | rfl <;> simp [exV] at hop
  simp [exV, NodeV.srcs] at hs
  subst hs
  cases hd with
  | node _ val _ _ hv => revert hv; simp only [exV, Means, exIn]; decide

/-- With a=5, b=7, s=1 the simulated output is 5-7 modulo 2^64. -/
example (F : FloatOps) : ∃ vals', runSim F exV [2, 0, 1, 4, 3, 5, 6] (fun _ => none) exIn = .done vals' ∧
    vals' 6 = some (BitVec.ofInt 64 (-2)) := ⟨_, rfl, rfl⟩

end Verif.Dfcxx
