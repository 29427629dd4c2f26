import Verif.Vcd.Read
import Verif.Dfcxx.SimIOProps
/-
C79, continued: what every successful simulation hands to the template, and what a reader sees in the text.
-/
namespace Verif.Vcd
open Verif.Dfcxx

/-- A section of the dump: one binary value of the right length for each node, in the order of the declarations. -/
def NeatTick (V : Nat → NodeV) (it : List Nat) (r : TickRec) : Prop :=
  List.Forall₂ (fun n p => p.1 = idOf V it n ∧ p.2.length = (V n).ty.totalBits ∧ ∀ c ∈ p.2, c = '0' ∨ c = '1') it r.values

theorem writeOutput_neat {V : Nat → NodeV} {it : List Nat} (hnd : it.Nodup) {vals : Vals} {k : Nat} {r : TickRec}
    (h : writeOutput V (genIds V it 0) vals it k = .ok r) : NeatTick V it r := by
  unfold writeOutput at h
  generalize hm : it.mapM (dumpNode V (genIds V it 0) vals) = m at h
  cases m with
  | error e => cases h
  | ok vs =>
    cases h
    have h2 := (mapM_ok_forall₂ _ _ _).1 hm
    unfold NeatTick
    have : ∀ (l : List Nat) (vs : List (String × List Char)), (∀ n ∈ l, n ∈ it) →
        List.Forall₂ (fun n p => dumpNode V (genIds V it 0) vals n = .ok p) l vs →
        List.Forall₂ (fun n p => p.1 = idOf V it n ∧ p.2.length = (V n).ty.totalBits ∧ ∀ c ∈ p.2, c = '0' ∨ c = '1') l vs := by
      intro l vs hsub hf
      induction hf with
      | nil => exact .nil
      | @cons n p l vs hnp _ ih =>
        refine .cons ?_ (ih fun m hm => hsub m (by simp [hm]))
        have hn := hsub n (by simp)
        unfold dumpNode at hnp
        rw [idOf_lookup V it hnd n hn] at hnp
        by_cases hw : (V n).ty.totalBits ≤ 64
        · obtain ⟨cs, hcs, hb⟩ := valueToBinary_text (rd vals n) _ hw
          rw [hcs] at hnp; cases hnp
          exact ⟨rfl, hb.1, hb.2.1⟩
        · rw [valueToBinary_wide_ub _ _ (by omega)] at hnp; cases hnp
    exact this it vs (fun _ h => h) h2

theorem drvBatch_neat {F : FloatOps} {V : Nat → NodeV} {order it : List Nat} (hnd : it.Nodup) {d : InData} {s : Nat} {iters : List Nat} :
    ∀ {st st' : DrvState} {recs : List TickRec}, (∀ m, st.ids = some m → m = genIds V it 0) →
      drvBatch F V order it d s iters st = .ok (some (st', recs)) →
      (∀ r ∈ recs, NeatTick V it r) ∧ (∀ m, st'.ids = some m → m = genIds V it 0) ∧ (iters ≠ [] → st'.ids = some (genIds V it 0)) ∧
        (iters = [] → st' = st ∧ recs = []) := by
  induction iters with
  | nil =>
    intro st st' recs hid h
    simp only [drvBatch] at h; cases h
    exact ⟨by simp, hid, by simp, fun _ => ⟨rfl, rfl⟩⟩
  | cons i iters ih =>
    intro st st' recs hid h
    simp only [drvBatch] at h
    have hids : st.ids.getD (genIds V it 0) = genIds V it 0 := by
      cases hx : st.ids with
      | none => rfl
      | some m => rw [hid m hx]; rfl
    rw [hids] at h
    split at h
    · cases h
    · cases h
    · rename_i vals' _
      split at h
      · cases h
      · rename_i r hr
        split at h
        · cases h
        · cases h
        · rename_i st2 recs2 hb
          cases h
          obtain ⟨h1, h2, h3, h4⟩ := ih (fun m hm => by cases hm; rfl) hb
          refine ⟨fun r' hr' => ?_, h2, fun _ => ?_, by simp⟩
          · rcases List.mem_cons.mp hr' with rfl | hr'
            · exact writeOutput_neat hnd hr
            · exact h1 r' hr'
          · by_cases he : iters = []
            · rw [(h4 he).1]
            · exact h3 he

theorem drvLoop_neat {F : FloatOps} {V : Nat → NodeV} {order it : List Nat} (hnd : it.Nodup) : ∀ (k : Nat) (lines : List Line) (d : InData) (s : Nat)
    (st st' : DrvState) (recs : List TickRec) (fin : Nat), lines.length ≤ k → (∀ m, st.ids = some m → m = genIds V it 0) →
    drvLoop F V order it lines d s st = .ok (some (st', recs, fin)) →
    (∀ r ∈ recs, NeatTick V it r) ∧ (∀ m, st'.ids = some m → m = genIds V it 0) ∧ (recs ≠ [] → st'.ids = some (genIds V it 0)) ∧
      (recs = [] → st' = st) ∧ (∀ m, st.ids = some m → st'.ids = some m) := by
  intro k
  induction k with
  | zero =>
    intro lines d s st st' recs fin hk hid h
    have : lines = [] := List.length_eq_zero_iff.1 (by omega)
    subst this
    rw [drvLoop_done F V order it [] d s st d [] (readInput_nil d)] at h
    cases h
    exact ⟨by simp, hid, by simp, fun _ => rfl, fun _ h => h⟩
  | succ k ih =>
    intro lines d s st st' recs fin hk hid h
    cases hr : readInput lines d with
    | error f =>
      rw [drvLoop] at h
      split at h
      · cases h
      · rename_i hr2; rw [hr] at hr2; cases hr2
    | ok p =>
      obtain ⟨c, d', rest⟩ := p
      by_cases hc : c = 0
      · subst hc
        rw [drvLoop_done F V order it lines d s st d' rest hr] at h
        cases h
        exact ⟨by simp, hid, by simp, fun _ => rfl, fun _ h => h⟩
      · rw [drvLoop_batch F V order it lines d s st c d' rest hc hr] at h
        split at h
        · cases h
        · cases h
        · rename_i st2 recs2 hb
          split at h
          · cases h
          · cases h
          · rename_i st3 recs3 fin3 hl
            cases h
            have hrest := (readLoop_rest_le _ _ _ _ _ _ _ hr).2 hc rfl
            obtain ⟨b1, b2, b3, -⟩ := drvBatch_neat hnd hid hb
            obtain ⟨l1, l2, l3, l4, l5⟩ := ih rest d' (s + c) st2 _ _ _ (by omega) b2 hl
            have hne : st2.ids = some (genIds V it 0) := b3 (by simpa using hc)
            refine ⟨fun r hr => (List.mem_append.mp hr).elim (b1 r) (l1 r), l2, fun _ => ?_, fun he => ?_, fun m hm => ?_⟩
            · exact l5 _ hne
            · exfalso
              have hlen : recs2 ≠ [] := by
                cases hcc : c with
                | zero => exact absurd hcc hc
                | succ c' =>
                  rw [hcc, List.range_succ_eq_map] at hb
                  simp only [drvBatch] at hb
                  split at hb
                  · cases hb
                  · cases hb
                  · split at hb
                    · cases hb
                    · split at hb
                      · cases hb
                      · cases hb
                      · cases hb; simp
              exact hlen (List.append_eq_nil_iff.mp he).1
            · rw [hid m hm]; exact l5 _ hne

/-- What every successful simulation hands to the template. -/
theorem simulate_neat {F : FloatOps} {V : Nat → NodeV} {order it : List Nat} (hnd : it.Nodup) {content : List Char} {vcd : Dfcxx.Vcd}
    (h : simulate F V order it content = .ok (some vcd)) :
    (∀ r ∈ vcd.ticks, NeatTick V it r) ∧
      vcd.vars = if vcd.ticks = [] then [] else it.map fun n => (idOf V it n, (V n).ty.totalBits) := by
  unfold simulate simulateLines at h
  split at h
  · cases h
  · cases h
  · rename_i st recs fin hl
    cases h
    obtain ⟨h1, -, h3, h4, -⟩ := drvLoop_neat hnd _ _ _ _ _ _ _ _ (le_refl _) (fun m hm => by cases hm) hl
    refine ⟨h1, ?_⟩
    simp only
    split
    · rename_i e; rw [h4 e]; rfl
    · rename_i e
      rw [h3 e]
      simp only [headerVars, Option.getD_some]
      have e : (genIds V it 0).map (fun p => (p.2, (V p.1).ty.totalBits)) =
          ((genIds V it 0).map Prod.fst).map (fun n => (idOf V it n, (V n).ty.totalBits)) := by
        rw [List.map_map]
        refine List.map_congr_left fun p hp => ?_
        have := lookup_of_mem (ids := genIds V it 0) (by rw [genIds_fst]; exact hnd) (n := p.1) (s := p.2) hp
        simp [idOf, this]
      rw [e, genIds_fst]

/-! ### Values at times -/

theorem valueAt_append (id : Word) (t : Nat) (es es' : List Event) (h : ∀ n, .time n ∈ es → n ≤ t) (v : Option Word) :
    valueAt id t (es ++ es') v = valueAt id t es' (valueAt id t es v) := by
  induction es generalizing v with
  | nil => rfl
  | cons e es ih =>
    cases e with
    | time n =>
      rw [List.cons_append, valueAt, valueAt, if_pos (h n (by simp)), if_pos (h n (by simp))]
      exact ih (fun m hm => h m (by simp [hm])) v
    | change i x => rw [List.cons_append, valueAt, valueAt]; exact ih (fun m hm => h m (by simp [hm])) _

theorem valueAt_changes {α : Type} {id : Word} {t : Nat} {l : List α} {f : α → Word × Word} {x : Word} (hx : ∃ a ∈ l, f a = (id, x))
    (hu : ∀ a ∈ l, (f a).1 = id → (f a).2 = x) (v : Option Word) :
    valueAt id t (l.map fun a => .change (f a).1 (f a).2) v = some x := by
  have key : ∀ (l : List α) (v : Option Word), (∀ a ∈ l, (f a).1 = id → (f a).2 = x) → (v = some x ∨ ∃ a ∈ l, f a = (id, x)) →
      valueAt id t (l.map fun a => .change (f a).1 (f a).2) v = some x := by
    intro l
    induction l with
    | nil => intro v _ h; rcases h with rfl | ⟨a, ha, -⟩ <;> first | rfl | cases ha
    | cons a l ih =>
      intro v hu h
      rw [List.map_cons, valueAt]
      refine ih _ (fun b hb => hu b (by simp [hb])) ?_
      split
      · rename_i e; left; rw [hu a (by simp) e]
      · rename_i e
        rcases h with rfl | ⟨b, hb, hf⟩
        · exact .inl rfl
        · rcases List.mem_cons.mp hb with rfl | hb
          · exact absurd (by rw [hf]) e
          · exact .inr ⟨b, hb, hf⟩
  exact key l v hu (.inr hx)

theorem endTime_append (a b : List Event) : endTime (a ++ b) = max (endTime a) (endTime b) := by
  induction a with
  | nil => simp [endTime]
  | cons e a ih => cases e <;> simp [endTime, ih, Nat.max_assoc]

theorem endTime_changes {α : Type} (l : List α) (f : α → Word × Word) : endTime (l.map fun a => .change (f a).1 (f a).2) = 0 := by
  induction l with
  | nil => rfl
  | cons a l ih => simpa [endTime] using ih

theorem endTime_le {es : List Event} {k : Nat} (h : ∀ n, Event.time n ∈ es → n ≤ k) : endTime es ≤ k := by
  induction es with
  | nil => simp [endTime]
  | cons e es ih =>
    have := ih fun n hn => h n (by simp [hn])
    cases e with
    | time n => have := h n (by simp); simp only [endTime]; omega
    | change _ _ => simpa [endTime] using this

theorem time_in_tick {r : TickRec} {n : Nat} (h : Event.time n ∈ tickEvents r) : n = r.tick := by
  unfold tickEvents at h
  rcases List.mem_cons.mp h with h | h
  · simpa using h
  · obtain ⟨p, -, hp⟩ := List.mem_map.mp h
    cases hp

/-- **C79, what a reader sees.**  In the text of a dump whose sections are numbered 1, 2, 3, …, with every name an identifier code, declared once, every
variable has an unknown value before the first section, and the values of section `i` at time `i`. -/
theorem dump_shows (now : Clock) {v : Dfcxx.Vcd} (h : Dumpable v) (hn : (v.vars.map Prod.fst).Nodup)
    (hk : v.ticks.map TickRec.tick = List.range' 1 v.ticks.length) (hf : v.final = v.ticks.length + 1) :
    ∃ f, read (text now v) = some f ∧ endTime f.events = v.ticks.length + 1 ∧
      ∀ p ∈ v.vars, Shows f p.1.toList p.2 0 (List.replicate p.2 'x') ∧
        ∀ (i : Nat) (r : TickRec) (x : List Char), v.ticks[i]? = some r → (p.1, x) ∈ r.values → (∀ y, (p.1, y) ∈ r.values → y = x) →
          Shows f p.1.toList p.2 (i + 1) x := by
  refine ⟨_, read_text now h, ?_, ?_⟩
  · simp only
    rw [endTime_append, endTime_append]
    have h1 := endTime_changes v.vars fun p => (p.1.toList, List.replicate p.2 'x')
    simp only at h1
    have h2 : endTime (v.ticks.flatMap tickEvents) ≤ v.ticks.length + 1 := by
      refine endTime_le fun n hn => ?_
      obtain ⟨r, hr, hn⟩ := List.mem_flatMap.mp hn
      have : n ∈ v.ticks.map TickRec.tick := by rw [time_in_tick hn]; exact List.mem_map_of_mem hr
      rw [hk, List.mem_range'_1] at this
      omega
    rw [h1]
    simp only [endTime, hf]
    omega
  · intro p hp
    have htick : ∀ i r, v.ticks[i]? = some r → r.tick = i + 1 := by
      intro i r hr
      have h1 : (v.ticks.map TickRec.tick)[i]? = some r.tick := by rw [List.getElem?_map, hr]; rfl
      rw [hk] at h1
      obtain ⟨h2, h3⟩ := List.getElem?_eq_some_iff.mp h1
      simp at h3; omega
    have hone : ∀ d' ∈ (v.vars.map fun p => (⟨p.2, p.1.toList, p.1.toList⟩ : Decl)), d'.ref = p.1.toList ∨ d'.id = p.1.toList →
        d' = ⟨p.2, p.1.toList, p.1.toList⟩ := by
      intro d' hd' he
      obtain ⟨q, hq, rfl⟩ := List.mem_map.mp hd'
      have : q.1 = p.1 := String.toList_injective (by simpa using he)
      have := List.inj_on_of_nodup_map hn hq hp this
      rw [this]
    have hinit : ∀ t, valueAt p.1.toList t (v.vars.map fun p => .change p.1.toList (List.replicate p.2 'x')) none = some (List.replicate p.2 'x') := by
      intro t
      refine valueAt_changes (f := fun p : String × Nat => (p.1.toList, List.replicate p.2 'x')) ⟨p, hp, rfl⟩ (fun q hq he => ?_) none
      have : q.1 = p.1 := String.toList_injective he
      have := List.inj_on_of_nodup_map hn hq hp this
      rw [this]
    have hti : ∀ n t, Event.time n ∉ v.vars.map fun p => Event.change p.1.toList (List.replicate p.2 t) := by
      intro n t hm
      obtain ⟨q, -, hq⟩ := List.mem_map.mp hm
      cases hq
    refine ⟨⟨_, List.mem_map_of_mem hp, rfl, rfl, hone, ?_⟩, fun i r x hr hx hu => ⟨_, List.mem_map_of_mem hp, rfl, rfl, hone, ?_⟩⟩
    · simp only [List.append_assoc]
      rw [valueAt_append _ _ _ _ (fun n hm => absurd hm (hti n 'x')), hinit]
      cases ht : v.ticks with
      | nil => simp [valueAt, hf]
      | cons r ts =>
        have := htick 0 r (by rw [ht]; rfl)
        simp [tickEvents, valueAt, this]
    · have hi := (List.getElem?_eq_some_iff.mp hr).1
      have hsplit : v.ticks = v.ticks.take i ++ r :: v.ticks.drop (i + 1) := by
        conv_lhs => rw [← List.take_append_drop i v.ticks]
        rw [List.drop_eq_getElem_cons hi, (List.getElem?_eq_some_iff.mp hr).2]
      have hpre : ∀ n, Event.time n ∈ (v.ticks.take i).flatMap tickEvents → n ≤ i + 1 := by
        intro n hm
        obtain ⟨r', hr', hm⟩ := List.mem_flatMap.mp hm
        obtain ⟨j, hj⟩ := List.mem_iff_getElem?.mp hr'
        rw [List.getElem?_take] at hj
        split at hj
        · have := htick j r' hj
          rw [time_in_tick hm]; omega
        · cases hj
      simp only [List.append_assoc]
      rw [valueAt_append _ _ _ _ (fun n hm => absurd hm (hti n 'x'))]
      rw [hsplit, List.flatMap_append, List.flatMap_cons, List.append_assoc, valueAt_append _ _ _ _ hpre]
      rw [List.append_assoc, valueAt_append _ _ (tickEvents r) _ (fun n hm => by rw [time_in_tick hm, htick i r hr])]
      have hval : ∀ w, valueAt p.1.toList (i + 1) (tickEvents r) w = some x := by
        intro w
        unfold tickEvents
        rw [valueAt, if_pos (by rw [htick i r hr])]
        refine valueAt_changes (f := fun q : String × List Char => (q.1.toList, q.2)) ⟨_, hx, rfl⟩ (fun q hq he => ?_) w
        have : q.1 = p.1 := String.toList_injective he
        exact hu q.2 (by rw [← this]; exact hq)
      rw [hval]
      cases ht : v.ticks.drop (i + 1) with
      | nil =>
        have : v.final > i + 1 := by rw [hf]; omega
        simp only [List.flatMap_nil, List.nil_append, valueAt]
        rw [if_neg (by omega)]
      | cons r' ts =>
        have hr' : v.ticks[i + 1]? = some r' := by
          rw [← List.head?_drop, ht]; rfl
        have := htick (i + 1) r' hr'
        rw [List.flatMap_cons, tickEvents, List.cons_append, List.cons_append, valueAt, if_neg (by omega)]

end Verif.Vcd
