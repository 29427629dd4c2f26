import Verif.Dfcxx.SimIOLemmas
import Verif.Dfcxx.SimProps
import Mathlib.Data.List.TakeWhile
/-
Properties C19-C23, C51 (simulation files): statements about `simulate`, `readInput`, `valueToBinary`, `genIds`.
-/
namespace Verif.Dfcxx

/-- **C19.**  Reading a document of at most 200 blocks (with at least one assignment) yields one tick per block;
at tick `i` a named input has the last value given for it in block `i`, or 0 when block `i` does not mention it;
a name never mentioned makes the access throw. -/
theorem readInput_document (doc : List Block) (lines : List (List Char)) (h : Renders doc lines)
    (hne : ∃ b ∈ doc, b ≠ []) (hlen : doc.length ≤ 200) :
    ∃ d, readInput lines (fun _ => none) = .ok (doc.length, d, []) ∧
      ∀ i < doc.length, tickIn d i = docTick doc i := by
  refine ⟨applyDoc (fun _ => none) 0 doc, ?_, fun i hi => tickIn_applyDoc doc i (by unfold bufSize; omega)⟩
  unfold readInput
  rw [readLoop_doc h 0 false _ (by unfold bufSize; omega)]
  have : (doc.any fun b => !b.isEmpty) = true := by
    obtain ⟨b, hb, hb'⟩ := hne
    exact List.any_eq_true.2 ⟨b, hb, by simpa using hb'⟩
  simp [this]

/-- Accepted spellings of a value: any digit string of either case, with or without `0x`, of the right value. -/
theorem hex_value_accepted (txt : List Char) (v : Word) (h : ValueText txt v) : stoul16 txt = .ok v :=
  stoul16_of_valueText h

example : ValueText "0x1aF".toList 0x1af ∧ ValueText "1AF".toList 0x1af := by
  have : HexNum (([] ++ ['1'] ++ ['a']) ++ ['F']) (16 * (16 * (16 * 0 + 1) + 10) + 15) :=
    .snoc (.snoc (.snoc .nil (.inl rfl)) (.inl rfl)) (.inr rfl)
  have h2 : HexNum (([] ++ ['1'] ++ ['A']) ++ ['F']) (16 * (16 * (16 * 0 + 1) + 10) + 15) :=
    .snoc (.snoc (.snoc .nil (.inl rfl)) (.inr rfl)) (.inr rfl)
  exact ⟨⟨_, by simp, this, .inr (.inl rfl)⟩, ⟨_, by simp, h2, .inl rfl⟩⟩

/-- **C22.**  The text of a value of width at most 64 has `width` binary digits, most significant first, and
denotes the value modulo `2^width`. -/
theorem valueToBinary_text (v : Word) (w : Nat) (hw : w ≤ 64) :
    ∃ cs, valueToBinary v w = .ok cs ∧ BinText cs w v := valueToBinary_ok v w hw

theorem mapM_error {α β : Type} (f : α → Except Fault β) (a : α) (l : List α) (e : Fault) (h : f a = .error e) :
    (a :: l).mapM f = .error e := by
  rw [List.mapM_cons, h]; rfl

/-- C22, the excluded widths: printing a value wider than 64 bits is undefined behaviour. -/
theorem valueToBinary_wide_ub (v : Word) (w : Nat) (hw : 64 < w) : valueToBinary v w = .error .ub := by
  unfold valueToBinary
  obtain ⟨k, rfl⟩ : ∃ k, w = k + 1 := ⟨w - 1, by omega⟩
  rw [List.range_succ_eq_map]
  apply mapM_error
  have : ¬ (k + 1 - 1 - 0 < 64) := by omega
  simp [this]; omega

theorem mapM_ok_forall₂ {α β : Type} (f : α → Except Fault β) : ∀ (l : List α) (r : List β),
    l.mapM f = .ok r ↔ List.Forall₂ (fun a b => f a = .ok b) l r := by
  intro l
  induction l with
  | nil =>
    intro r
    rw [List.mapM_nil]
    constructor
    · intro h; cases h; exact .nil
    · intro h; cases h; rfl
  | cons a l ih =>
    intro r
    rw [List.mapM_cons]
    constructor
    · intro h
      cases ha : f a with
      | error e => rw [ha] at h; cases h
      | ok b =>
        rw [ha] at h
        cases hl : l.mapM f with
        | error e => rw [hl] at h; cases h
        | ok bs => rw [hl] at h; cases h; exact .cons ha ((ih bs).1 hl)
    · intro h
      cases h with
      | cons h1 h2 => rw [h1, (ih _).2 h2]; rfl

/-! ### Identifiers (C23) -/

theorem genIds_fst (V : Nat → NodeV) : ∀ (l : List Nat) (c : Nat), (genIds V l c).map Prod.fst = l := by
  intro l
  induction l with
  | nil => intro c; rfl
  | cons n l ih => intro c; unfold genIds; split <;> simp [ih]

theorem genIds_named (V : Nat → NodeV) : ∀ (l : List Nat) (c : Nat) (p : Nat × String), p ∈ genIds V l c →
    ((V p.1).name ≠ "" → p.2 = (V p.1).name) ∧
    ((V p.1).name = "" → ∃ k, c ≤ k ∧ p.2 = "node" ++ toString k) := by
  intro l
  induction l with
  | nil => intro c p h; simp [genIds] at h
  | cons n l ih =>
    intro c p h
    unfold genIds at h
    split at h
    · rcases List.mem_cons.1 h with rfl | h
      · rename_i hn; exact ⟨fun _ => rfl, fun h => absurd h hn⟩
      · exact ih c p h
    · rcases List.mem_cons.1 h with rfl | h
      · rename_i hn; exact ⟨fun h => absurd h hn, fun _ => ⟨c, le_refl _, rfl⟩⟩
      · obtain ⟨h1, h2⟩ := ih (c+1) p h
        exact ⟨h1, fun h => by obtain ⟨k, hk, e⟩ := h2 h; exact ⟨k, by omega, e⟩⟩

theorem node_prefix_inj {a b : Nat} (h : "node" ++ toString a = "node" ++ toString b) : a = b := by
  apply toString_nat_inj
  have := congrArg String.toList h
  simp only [String.toList_append] at this
  exact String.toList_injective (List.append_cancel_left this)

/-- **C23.**  If the names the user gave are pairwise distinct and none has the form `node<number>`, all
identifiers of the dump are pairwise distinct (for every iteration order of the table). -/
theorem vcd_ids_unique (V : Nat → NodeV) (it : List Nat) (hnd : it.Nodup)
    (hu : ∀ m ∈ it, ∀ n ∈ it, (V m).name ≠ "" → (V m).name = (V n).name → m = n)
    (hr : ∀ m ∈ it, ∀ k : Nat, (V m).name ≠ "node" ++ toString k) :
    ((genIds V it 0).map Prod.snd).Nodup := by
  have : ∀ (l : List Nat) (c : Nat), l.Nodup → (∀ n ∈ l, n ∈ it) → ((genIds V l c).map Prod.snd).Nodup := by
    intro l
    induction l with
    | nil => intro c _ _; simp [genIds]
    | cons n l ih =>
      intro c hl hsub
      have hmem : ∀ p ∈ genIds V l c, p.1 ∈ l := fun p hp => by
        rw [← genIds_fst V l c]; exact List.mem_map_of_mem hp
      have hmem' : ∀ p ∈ genIds V l (c+1), p.1 ∈ l := fun p hp => by
        rw [← genIds_fst V l (c+1)]; exact List.mem_map_of_mem hp
      have hnl := (List.nodup_cons.1 hl).1
      unfold genIds
      split
      · rename_i hn
        simp only [List.map_cons, List.nodup_cons]
        refine ⟨?_, ih c (List.nodup_cons.1 hl).2 (fun m hm => hsub m (by simp [hm]))⟩
        intro hc
        obtain ⟨p, hp, e⟩ := List.mem_map.1 hc
        obtain ⟨h1, h2⟩ := genIds_named V l c p hp
        by_cases hpn : (V p.1).name = ""
        · obtain ⟨k, _, hk⟩ := h2 hpn
          exact hr n (hsub n (by simp)) k (by rw [← e, hk])
        · have := hu n (hsub n (by simp)) p.1 (hsub _ (by simp [hmem p hp])) hn (by rw [← e, h1 hpn])
          exact hnl (this ▸ hmem p hp)
      · rename_i hn
        simp only [List.map_cons, List.nodup_cons]
        refine ⟨?_, ih (c+1) (List.nodup_cons.1 hl).2 (fun m hm => hsub m (by simp [hm]))⟩
        intro hc
        obtain ⟨p, hp, e⟩ := List.mem_map.1 hc
        obtain ⟨h1, h2⟩ := genIds_named V l (c+1) p hp
        by_cases hpn : (V p.1).name = ""
        · obtain ⟨k, hk, hk'⟩ := h2 hpn
          have := node_prefix_inj (by rw [← hk', e] : "node" ++ toString k = "node" ++ toString c)
          omega
        · exact hr p.1 (hsub _ (by simp [hmem' p hp])) c (by rw [← e, h1 hpn])
  exact this it 0 hnd (fun n hn => hn)

/-- C23 fails without the reserved-form restriction: a stream the user named `node0` shares its identifier with
an unnamed node. -/
theorem vcd_ids_collide : ∃ (V : Nat → NodeV) (it : List Nat), it.Nodup ∧
    (∀ m ∈ it, ∀ n ∈ it, (V m).name ≠ "" → (V m).name = (V n).name → m = n) ∧
    ¬ ((genIds V it 0).map Prod.snd).Nodup := by
  refine ⟨fun n => ⟨.IN, .none, .fixed false 8 0, .stream, if n = 0 then "node0" else "", []⟩, [0, 1], by decide, ?_, ?_⟩
  · simp
  · decide

/-! ### The whole simulation -/

theorem lookup_of_mem {ids : IdMap} (hnd : (ids.map Prod.fst).Nodup) {n : Nat} {s : String} (h : (n, s) ∈ ids) :
    ids.lookup n = some s := by
  induction ids with
  | nil => simp at h
  | cons p ids ih =>
    obtain ⟨a, b⟩ := p
    simp only [List.map_cons, List.nodup_cons] at hnd
    rcases List.mem_cons.1 h with h | h'
    · cases h; simp [List.lookup]
    · have : n ≠ a := by rintro rfl; exact hnd.1 (List.mem_map.2 ⟨(n, s), h', rfl⟩)
      rw [List.lookup_cons, beq_eq_false_iff_ne.2 this]; exact ih hnd.2 h'

theorem mem_of_lookup {ids : IdMap} {n : Nat} {s : String} (h : ids.lookup n = some s) : (n, s) ∈ ids := by
  induction ids with
  | nil => simp at h
  | cons p ids ih =>
    obtain ⟨a, b⟩ := p
    rw [List.lookup_cons] at h
    by_cases e : n = a
    · subst e; simp at h; simp [h]
    · rw [beq_eq_false_iff_ne.2 e] at h; exact List.mem_cons_of_mem _ (ih h)

/-- Identifier of node `n` in the dump. -/
def idOf (V : Nat → NodeV) (it : List Nat) (n : Nat) : String := ((genIds V it 0).lookup n).getD ""

theorem idOf_lookup (V : Nat → NodeV) (it : List Nat) (hnd : it.Nodup) (n : Nat) (hn : n ∈ it) :
    (genIds V it 0).lookup n = some (idOf V it n) := by
  have : n ∈ (genIds V it 0).map Prod.fst := by rw [genIds_fst]; exact hn
  obtain ⟨p, hp, rfl⟩ := List.mem_map.1 this
  have := lookup_of_mem (by rw [genIds_fst]; exact hnd) (s := p.2) hp
  simp [idOf, this]

/-- What a correct tick section for the inputs `inp` looks like. -/
def GoodTick (F : FloatOps) (V : Nat → NodeV) (it : List Nat) (inp : TickIn) (k : Nat) (r : TickRec) : Prop :=
  r.tick = k ∧ List.Forall₂ (fun n p => p.1 = idOf V it n ∧
    ∃ v, Denotes F V inp n v ∧ BinText p.2 (V n).ty.totalBits v) it r.values

theorem writeOutput_good (F : FloatOps) (V : Nat → NodeV) (order it : List Nat) (hit : it.Perm order)
    (hnd : it.Nodup) (inp : TickIn) (vals : Vals)
    (hv : ∀ n ∈ order, ∃ v, vals n = some v ∧ Denotes F V inp n v) (k : Nat) (r : TickRec)
    (h : writeOutput V (genIds V it 0) vals it k = .ok r) : GoodTick F V it inp k r := by
  unfold writeOutput at h
  generalize hm : it.mapM (dumpNode V (genIds V it 0) vals) = m at h
  cases m with
  | error e => cases h
  | ok vs =>
    cases h
    refine ⟨rfl, ?_⟩
    have h2 := (mapM_ok_forall₂ _ _ _).1 hm
    have : ∀ (l : List Nat) (vs : List (String × List Char)), (∀ n ∈ l, n ∈ it) →
        List.Forall₂ (fun n p => dumpNode V (genIds V it 0) vals n = .ok p) l vs →
        List.Forall₂ (fun n p => p.1 = idOf V it n ∧
          ∃ v, Denotes F V inp n v ∧ BinText p.2 (V n).ty.totalBits v) l vs := by
      intro l vs hsub hf
      induction hf with
      | nil => exact .nil
      | @cons n p l vs hnp _ ih =>
        refine .cons ?_ (ih fun m hm => hsub m (by simp [hm]))
        have hn := hsub n (by simp)
        obtain ⟨v, hv1, hv2⟩ := hv n (hit.mem_iff.1 hn)
        have hrd : rd vals n = v := by simp [rd, hv1]
        unfold dumpNode at hnp
        rw [hrd, idOf_lookup V it hnd n hn] at hnp
        by_cases hw : (V n).ty.totalBits ≤ 64
        · obtain ⟨cs, hcs, hb⟩ := valueToBinary_text v _ hw
          rw [hcs] at hnp; cases hnp
          exact ⟨rfl, v, hv2, hb⟩
        · rw [valueToBinary_wide_ub v _ (by omega)] at hnp; cases hnp
    exact this it vs (fun _ h => h) h2

theorem writeOutput_ok (V : Nat → NodeV) (it : List Nat) (hnd : it.Nodup) (vals : Vals)
    (hw : ∀ n ∈ it, (V n).ty.totalBits ≤ 64) (k : Nat) :
    ∃ r, writeOutput V (genIds V it 0) vals it k = .ok r := by
  have : ∀ l : List Nat, (∀ n ∈ l, n ∈ it) → ∃ vs, l.mapM (dumpNode V (genIds V it 0) vals) = .ok vs := by
    intro l
    induction l with
    | nil => intro _; exact ⟨[], rfl⟩
    | cons n l ih =>
      intro hsub
      obtain ⟨vs, hvs⟩ := ih fun m hm => hsub m (by simp [hm])
      have hn := hsub n (by simp)
      obtain ⟨cs, hcs, _⟩ := valueToBinary_text (rd vals n) _ (hw n hn)
      refine ⟨(idOf V it n, cs) :: vs, ?_⟩
      rw [List.mapM_cons, hvs, dumpNode, hcs, idOf_lookup V it hnd n hn]; rfl
  obtain ⟨vs, hvs⟩ := this it fun _ h => h
  refine ⟨⟨k, vs⟩, ?_⟩
  unfold writeOutput; rw [hvs]

theorem drvBatch_sound (F : FloatOps) (V : Nat → NodeV) (order it : List Nat) (ht : TopoOrder V order)
    (hs : ∀ n ∈ order, (V n).Shape) (hit : it.Perm order) (d : InData) (startInd : Nat)
    (iters : List Nat) : ∀ (st st' : DrvState) (recs : List TickRec),
    (∀ i ∈ iters, NoWrap F V (tickIn d i) order) → (∀ m, st.ids = some m → m = genIds V it 0) →
    drvBatch F V order it d startInd iters st = .ok (some (st', recs)) →
    List.Forall₂ (fun i r => GoodTick F V it (tickIn d i) (startInd + i) r) iters recs ∧
      (∀ m, st'.ids = some m → m = genIds V it 0) ∧ (iters ≠ [] → st'.ids = some (genIds V it 0)) := by
  have hnd : it.Nodup := hit.nodup_iff.2 ht.nodup
  induction iters with
  | nil =>
    intro st st' recs _ hid h
    simp only [drvBatch] at h; cases h
    exact ⟨.nil, hid, by simp⟩
  | cons i iters ih =>
    intro st st' recs hw hid h
    simp only [drvBatch] at h
    cases hr : runSim F V order st.vals (tickIn d i) with
    | fault f => rw [hr] at h; cases h
    | failed => rw [hr] at h; cases h
    | done vals' =>
      rw [hr] at h; simp only at h
      have hids : st.ids.getD (genIds V it 0) = genIds V it 0 := by
        cases hx : st.ids with
        | none => rfl
        | some m => rw [hid m hx]; rfl
      rw [hids] at h
      cases hwo : writeOutput V (genIds V it 0) vals' it (startInd + i) with
      | error f => rw [hwo] at h; cases h
      | ok r =>
        rw [hwo] at h; simp only at h
        cases hb : drvBatch F V order it d startInd iters ⟨vals', some (genIds V it 0)⟩ with
        | error f => rw [hb] at h; cases h
        | ok o =>
          cases o with
          | none => rw [hb] at h; cases h
          | some p =>
            obtain ⟨st2, recs2⟩ := p
            rw [hb] at h; cases h
            obtain ⟨h1, h2, h3⟩ := ih _ _ _ (fun j hj => hw j (by simp [hj])) (fun m hm => by cases hm; rfl) hb
            have hval := runSim_computes_dataflow F V order (tickIn d i) st.vals vals' ht hs (hw i (by simp)) hr
            refine ⟨.cons (writeOutput_good F V order it hit hnd _ vals' hval _ r hwo) h1, h2, fun _ => ?_⟩
            by_cases he : iters = []
            · subst he; simp only [drvBatch] at hb; cases hb; rfl
            · exact h3 he

theorem drvLoop_done (F : FloatOps) (V : Nat → NodeV) (order it : List Nat) (lines : List Line) (d : InData)
    (s : Nat) (st : DrvState) (d' : InData) (rest : List Line) (h : readInput lines d = .ok (0, d', rest)) :
    drvLoop F V order it lines d s st = .ok (some (st, [], s)) := by
  rw [drvLoop]
  split
  · rename_i f hr; rw [h] at hr; cases hr
  · rename_i c d2 r2 hr
    rw [h] at hr; cases hr
    simp

theorem drvLoop_batch (F : FloatOps) (V : Nat → NodeV) (order it : List Nat) (lines : List Line) (d : InData)
    (s : Nat) (st : DrvState) (c : Nat) (d' : InData) (rest : List Line) (hc : c ≠ 0)
    (h : readInput lines d = .ok (c, d', rest)) :
    drvLoop F V order it lines d s st =
      match drvBatch F V order it d' s (List.range c) st with
      | .error f => .error f
      | .ok none => .ok none
      | .ok (some (st', recs)) =>
        match drvLoop F V order it rest d' (s + c) st' with
        | .error f => .error f
        | .ok none => .ok none
        | .ok (some (st'', recs', fin)) => .ok (some (st'', recs ++ recs', fin)) := by
  rw [drvLoop]
  split
  · rename_i f hr; rw [h] at hr; cases hr
  · rename_i c2 d2 r2 hr
    rw [h] at hr; cases hr
    rw [dif_neg hc]; rfl

theorem readInput_nil (d : InData) : readInput [] d = .ok (0, d, []) := rfl

/-- **C19-C22 end to end.**  Simulating a graph on a document of at most 200 blocks: if the simulator succeeds,
the dump declares every node with its width, has exactly one section per block, the section of block `i` is
tick `i + 1`, it gives for every node the binary text of the node's dataflow value on that block's inputs, and
the final tick is one past the last. -/
theorem simulate_document (F : FloatOps) (V : Nat → NodeV) (order it : List Nat) (ht : TopoOrder V order)
    (hs : ∀ n ∈ order, (V n).Shape) (hit : it.Perm order)
    (doc : List Block) (lines : List (List Char)) (hdoc : Renders doc lines)
    (hne : ∃ b ∈ doc, b ≠ []) (hlen : doc.length ≤ 200)
    (hw : ∀ i < doc.length, NoWrap F V (docTick doc i) order)
    (vcd : Vcd) (h : simulateLines F V order it lines = .ok (some vcd)) :
    vcd.vars = it.map (fun n => (idOf V it n, (V n).ty.totalBits)) ∧
    vcd.ticks.length = doc.length ∧ vcd.final = doc.length + 1 ∧
    ∀ i r, vcd.ticks[i]? = some r → GoodTick F V it (docTick doc i) (i + 1) r := by
  have hnd : it.Nodup := hit.nodup_iff.2 ht.nodup
  obtain ⟨d, hr, hd⟩ := readInput_document doc lines hdoc hne hlen
  have hpos : doc.length ≠ 0 := by
    obtain ⟨b, hb, _⟩ := hne
    intro h0; rw [List.length_eq_zero_iff.1 h0] at hb; simp at hb
  unfold simulateLines at h
  rw [drvLoop_batch F V order it lines _ 1 _ _ d [] hpos hr] at h
  cases hb : drvBatch F V order it d 1 (List.range doc.length) ⟨fun _ => none, none⟩ with
  | error f => rw [hb] at h; cases h
  | ok o =>
    cases o with
    | none => rw [hb] at h; cases h
    | some p =>
      obtain ⟨st', recs⟩ := p
      rw [hb] at h; simp only at h
      rw [drvLoop_done F V order it [] d _ st' d [] (readInput_nil d)] at h
      simp only [List.append_nil] at h
      cases h
      obtain ⟨h1, _, h3⟩ := drvBatch_sound F V order it ht hs hit d 1 _ _ _ _
        (fun i hi => by rw [hd i (List.mem_range.1 hi)]; exact hw i (List.mem_range.1 hi)) (by simp) hb
      have hl := h1.length_eq
      simp only [List.length_range] at hl
      refine ⟨?_, hl.symm, by simp; omega, ?_⟩
      · rw [h3 (by simpa using hpos)]
        simp only [headerVars, Option.getD_some]
        have e : (genIds V it 0).map (fun p => (p.2, (V p.1).ty.totalBits)) =
            ((genIds V it 0).map Prod.fst).map (fun n => (idOf V it n, (V n).ty.totalBits)) := by
          rw [List.map_map]
          refine List.map_congr_left fun p hp => ?_
          have := lookup_of_mem (ids := genIds V it 0) (by rw [genIds_fst]; exact hnd) (n := p.1) (s := p.2) hp
          simp [idOf, this]
        rw [e, genIds_fst]
      · intro i r hir
        have hi : i < doc.length := by
          have := (List.getElem?_eq_some_iff.1 hir).1; simp only at this; omega
        have := List.Forall₂.get h1 (i := i) (by simpa using hi) (by omega)
        simp only [List.get_eq_getElem, List.getElem_range] at this
        rw [hd i hi] at this
        have e := (List.getElem?_eq_some_iff.1 hir).2
        simp only at e
        rw [e, Nat.add_comm] at this
        exact this

/-- Completeness of `simulate_document`: when every node has a value on every block's inputs and every width is at
most 64, the simulation succeeds. -/
theorem simulate_document_succeeds (F : FloatOps) (V : Nat → NodeV) (order it : List Nat) (ht : TopoOrder V order)
    (hs : ∀ n ∈ order, (V n).Shape) (hit : it.Perm order)
    (doc : List Block) (lines : List (List Char)) (hdoc : Renders doc lines)
    (hne : ∃ b ∈ doc, b ≠ []) (hlen : doc.length ≤ 200)
    (hw : ∀ i < doc.length, NoWrap F V (docTick doc i) order)
    (hden : ∀ i < doc.length, ∀ n ∈ order, ∃ v, Denotes F V (docTick doc i) n v)
    (hwid : ∀ n ∈ order, (V n).ty.totalBits ≤ 64) :
    ∃ vcd, simulateLines F V order it lines = .ok (some vcd) := by
  have hnd : it.Nodup := hit.nodup_iff.2 ht.nodup
  obtain ⟨d, hr, hd⟩ := readInput_document doc lines hdoc hne hlen
  have hpos : doc.length ≠ 0 := by
    obtain ⟨b, hb, _⟩ := hne
    intro h0; rw [List.length_eq_zero_iff.1 h0] at hb; simp at hb
  have batch : ∀ (iters : List Nat) (st : DrvState), (∀ i ∈ iters, i < doc.length) →
      (∀ m, st.ids = some m → m = genIds V it 0) →
      ∃ p, drvBatch F V order it d 1 iters st = .ok (some p) := by
    intro iters
    induction iters with
    | nil => intro st _ _; exact ⟨_, rfl⟩
    | cons i iters ih =>
      intro st hi hid
      have hil := hi i (by simp)
      obtain ⟨vals', hrun⟩ := runSim_completes F V order (tickIn d i) st.vals ht hs
        (by rw [hd i hil]; exact hw i hil) (by rw [hd i hil]; exact hden i hil)
      have hids : st.ids.getD (genIds V it 0) = genIds V it 0 := by
        cases hx : st.ids with
        | none => rfl
        | some m => rw [hid m hx]; rfl
      obtain ⟨r, hr⟩ := writeOutput_ok V it hnd vals' (fun n hn => hwid n (hit.mem_iff.1 hn)) (1 + i)
      obtain ⟨p, hp⟩ := ih ⟨vals', some (genIds V it 0)⟩ (fun j hj => hi j (by simp [hj]))
        (fun m hm => by cases hm; rfl)
      refine ⟨(p.1, r :: p.2), ?_⟩
      simp only [drvBatch, hrun, hids, hr, hp]
  obtain ⟨p, hp⟩ := batch (List.range doc.length) ⟨fun _ => none, none⟩ (fun i hi => List.mem_range.1 hi) (by simp)
  refine ⟨⟨headerVars V (p.1.ids.getD []), p.2, 1 + doc.length⟩, ?_⟩
  unfold simulateLines
  rw [drvLoop_batch F V order it lines _ 1 _ _ d [] hpos hr, hp]
  simp only
  rw [drvLoop_done F V order it [] d _ p.1 d [] (readInput_nil d)]
  simp

/-- The same for the file itself: every line of the document followed by a newline. -/
theorem simulate_file_eq_lines (F : FloatOps) (V : Nat → NodeV) (order it : List Nat)
    (lines : List (List Char)) (h : ∀ l ∈ lines, '\n' ∉ l) :
    simulate F V order it (lines.flatMap (· ++ ['\n'])) = simulateLines F V order it lines := by
  unfold simulate; rw [getlines_join lines h]

theorem hexDigit_not_newline {cs : List Char} {n : Nat} (h : HexNum cs n) : '\n' ∉ cs := fun hc =>
  (hexVal_not ((hexNum_run h).1 _ hc)).2.2.2.2.2 rfl

/-- Lines of a document contain no newline, so `simulate_file_eq_lines` applies to them. -/
theorem renders_no_newline {doc : List Block} {lines : List (List Char)} (h : Renders doc lines) :
    ∀ l ∈ lines, '\n' ∉ l := by
  have hline : ∀ a l, LineOf a l → '\n' ∉ l := by
    rintro a l ⟨_, _, h3, txt, ⟨ds, _, hn, ht⟩, rfl⟩ hc
    rcases List.mem_append.1 hc with hc | hc
    · exact h3 hc
    · have := hexDigit_not_newline hn
      rcases ht with rfl | rfl | rfl <;> simp_all
  have hblock : ∀ (b : Block) ls, List.Forall₂ LineOf b ls → ∀ l ∈ ls, '\n' ∉ l := by
    intro b ls hf
    induction hf with
    | nil => simp
    | cons h _ ih =>
      intro l hl
      rcases List.mem_cons.1 hl with rfl | hl
      · exact hline _ _ h
      · exact ih l hl
  induction h with
  | last h => exact hblock _ _ h
  | more h _ ih =>
    intro l hl
    rcases List.mem_append.1 hl with hl | hl
    · exact hblock _ _ h l hl
    · rcases List.mem_cons.1 hl with rfl | hl
      · simp
      · exact ih l hl

/-- **C21.**  For every input file: if the simulation succeeds, the sections are numbered 1, 2, 3, ... without
gap or repetition and the final tick is one past the last. -/
theorem simulate_ticks_consecutive (F : FloatOps) (V : Nat → NodeV) (order it : List Nat) (content : List Char)
    (vcd : Vcd) (h : simulate F V order it content = .ok (some vcd)) :
    vcd.ticks.map TickRec.tick = List.range' 1 vcd.ticks.length ∧ vcd.final = vcd.ticks.length + 1 := by
  have hwr : ∀ (ids : IdMap) (vals : Vals) (k : Nat) r, writeOutput V ids vals it k = .ok r → r.tick = k := by
    intro ids vals k r h
    unfold writeOutput at h
    generalize it.mapM (dumpNode V ids vals) = m at h
    cases m <;> cases h; rfl
  have hbatch : ∀ (d : InData) (s : Nat) (iters : List Nat) (st st' : DrvState) (recs : List TickRec),
      drvBatch F V order it d s iters st = .ok (some (st', recs)) →
      recs.map TickRec.tick = iters.map (s + ·) := by
    intro d s iters
    induction iters with
    | nil => intro st st' recs h; simp only [drvBatch] at h; cases h; rfl
    | cons i iters ih =>
      intro st st' recs h
      simp only [drvBatch] at h
      split at h
      · cases h
      · cases h
      · split at h
        · cases h
        · rename_i r hr
          split at h
          · cases h
          · cases h
          · rename_i st2 recs2 hb
            cases h
            simp only [List.map_cons, ih _ _ _ hb, hwr _ _ _ _ hr]
  have hloop : ∀ (k : Nat) (lines : List Line) (d : InData) (s : Nat) (st st' : DrvState) (recs : List TickRec) (fin : Nat),
      lines.length ≤ k → drvLoop F V order it lines d s st = .ok (some (st', recs, fin)) →
      recs.map TickRec.tick = List.range' s recs.length ∧ fin = s + recs.length := by
    intro k
    induction k with
    | zero =>
      intro lines d s st st' recs fin hk h
      have : lines = [] := List.length_eq_zero_iff.1 (by omega)
      subst this
      rw [drvLoop_done F V order it [] d s st d [] (readInput_nil d)] at h
      cases h; simp
    | succ k ih =>
      intro lines d s st st' recs fin hk h
      cases hr : readInput lines d with
      | error f =>
        rw [drvLoop] at h
        split at h
        · cases h
        · rename_i hr2; rw [hr] at hr2; cases hr2
      | ok p =>
        obtain ⟨c, d', rest⟩ := p
        by_cases hc : c = 0
        · subst hc
          rw [drvLoop_done F V order it lines d s st d' rest hr] at h
          cases h; simp
        · rw [drvLoop_batch F V order it lines d s st c d' rest hc hr] at h
          split at h
          · cases h
          · cases h
          · rename_i st2 recs2 hb
            split at h
            · cases h
            · cases h
            · rename_i st3 recs3 fin3 hl
              cases h
              have hrest := (readLoop_rest_le _ _ _ _ _ _ _ hr).2 hc rfl
              obtain ⟨h1, h2⟩ := ih rest d' (s + c) st2 _ _ _ (by omega) hl
              have hb' := hbatch _ _ _ _ _ _ hb
              have hlen : recs2.length = c := by simpa using congrArg List.length hb'
              refine ⟨?_, by simp [h2, hlen]; omega⟩
              rw [List.map_append, hb', h1, List.length_append, hlen]
              rw [← List.range'_append (s := s) (m := c) (n := recs3.length) (step := 1)]
              simp [List.range'_eq_map_range]
  unfold simulate simulateLines at h
  split at h
  · cases h
  · cases h
  · rename_i st recs fin hl
    cases h
    obtain ⟨h1, h2⟩ := hloop _ _ _ _ _ _ _ _ (le_refl _) hl
    exact ⟨h1, by simp [h2]; omega⟩

/-! ### The batch boundary (C20) -/

theorem readLoop_doc_over {doc : List Block} {ls : List Line} (h : Renders doc ls) :
    ∀ (ind : Nat) (al : Bool) (d : InData), ind ≤ bufSize → bufSize < ind + doc.length →
    ∃ rest, readLoop ls ind al d =
      .ok (if al || (doc.take (bufSize - ind)).any (fun b => !b.isEmpty) then bufSize + 1 else 0,
        applyDoc d ind (doc.take (bufSize - ind)), rest) := by
  induction h with
  | @last b ls h =>
    intro ind al d hi hb
    simp only [List.length_cons, List.length_nil] at hb
    have : ind = bufSize := by omega
    subst this
    cases ls with
    | nil => exact ⟨[], by simp [readLoop, applyDoc]⟩
    | cons l ls => exact ⟨ls, by simp [readLoop, applyDoc]⟩
  | @more b ls doc rest h hr ih =>
    intro ind al d hi hb
    simp only [List.length_cons] at hb
    by_cases hlt : ind < bufSize
    · obtain ⟨r, hr⟩ := ih (ind + 1) (al || !b.isEmpty) (applyBlock d ind b) (by omega) (by omega)
      refine ⟨r, ?_⟩
      rw [readLoop_block h _ ind hlt al d]
      simp only [readLoop, hlt, if_true]
      rw [hr]
      have e : bufSize - ind = (bufSize - (ind + 1)) + 1 := by omega
      simp only [e, List.take_succ_cons, applyDoc, List.any_cons, Bool.or_assoc]
    · have : ind = bufSize := by omega
      subst this
      cases ls with
      | nil => exact ⟨rest, by simp [readLoop, applyDoc]⟩
      | cons l ls => exact ⟨_, by simp [readLoop, applyDoc]; rfl⟩

theorem runSim_in_not_done (F : FloatOps) (V : Nat → NodeV) (inp : TickIn) (hin : ∀ s v, inp s ≠ .ok v)
    (order : List Nat) (hi : ∃ n ∈ order, (V n).op = .IN) : ∀ vals vals', runSim F V order vals inp ≠ .done vals' := by
  induction order with
  | nil => simp at hi
  | cons m order ih =>
    intro vals vals' h
    obtain ⟨n, hn, ho⟩ := hi
    simp only [runSim] at h
    split at h
    · rename_i v hp
      rcases List.mem_cons.1 hn with rfl | hn
      · rw [processOp, ho] at hp
        simp only at hp
        cases hx : inp (V n).name with
        | ok u => exact hin _ _ hx
        | error f => rw [hx] at hp; cases hp
      · exact ih ⟨n, hn, ho⟩ _ _ h
    · cases h
    · cases h

/-- **C20 is false of the code.**  With more than 200 blocks (one of the first 200 non-empty) the reader reports
201 ticks for a buffer of 200 slots, so a simulation of a graph with at least one input never succeeds: tick
200 reads the buffer out of range.  (`simulate_document` is the part that holds: at most 200 blocks.) -/
theorem simulate_over_200_blocks_never_succeeds (F : FloatOps) (V : Nat → NodeV) (order it : List Nat)
    (hin : ∃ n ∈ order, (V n).op = .IN) (doc : List Block) (lines : List (List Char)) (hdoc : Renders doc lines)
    (hlen : 200 < doc.length) (hne : ∃ b ∈ doc.take 200, b ≠ []) :
    (∃ d rest, readInput lines (fun _ => none) = .ok (201, d, rest) ∧
      ∀ nm, tickIn d 200 nm = if doc.take 200 |>.any (fun b => b.any (fun p => p.1 = nm)) then .error .ub else .error .throw) ∧
    ∀ vcd, simulateLines F V order it lines ≠ .ok (some vcd) := by
  obtain ⟨rest, hr⟩ := readLoop_doc_over hdoc 0 false (fun _ => none) (by simp) (by simpa [bufSize] using hlen)
  have hany : ((doc.take (bufSize - 0)).any fun b => !b.isEmpty) = true := by
    obtain ⟨b, hb, hb'⟩ := hne
    exact List.any_eq_true.2 ⟨b, hb, by simpa using hb'⟩
  rw [hany] at hr
  simp only [Bool.or_true, if_true] at hr
  have hread : readInput lines (fun _ => none) = .ok (201, applyDoc (fun _ => none) 0 (doc.take (bufSize - 0)), rest) := hr
  have htick : ∀ nm, tickIn (applyDoc (fun _ => none) 0 (doc.take (bufSize - 0))) 200 nm =
      if doc.take 200 |>.any (fun b => b.any (fun p => p.1 = nm)) then .error .ub else .error .throw := by
    intro nm
    have h1 := (applyDoc_spec (doc.take (bufSize - 0)) (fun _ => none) 0 nm).1
    unfold tickIn
    cases hx : applyDoc (fun _ => none) 0 (doc.take (bufSize - 0)) nm with
    | none =>
      rw [hx] at h1; simp only [Option.isSome_none, Bool.false_or] at h1
      have h1 : (List.take 200 doc).any (fun b => b.any fun p => decide (p.1 = nm)) = false := h1.symm
      rw [h1]; rfl
    | some a =>
      rw [hx] at h1; simp only [Option.isSome_some, Option.isSome_none, Bool.false_or] at h1
      have h1 : (List.take 200 doc).any (fun b => b.any fun p => decide (p.1 = nm)) = true := h1.symm
      rw [h1]; rfl
  refine ⟨⟨_, rest, hread, htick⟩, ?_⟩
  intro vcd h
  unfold simulateLines at h
  rw [drvLoop_batch F V order it lines _ 1 _ 201 _ rest (by simp) hread] at h
  have hbatch : ∀ (iters : List Nat) (st : DrvState) p, 200 ∈ iters →
      drvBatch F V order it (applyDoc (fun _ => none) 0 (doc.take (bufSize - 0))) 1 iters st ≠ .ok (some p) := by
    intro iters
    induction iters with
    | nil => simp
    | cons i iters ih =>
      intro st p hm h
      simp only [drvBatch] at h
      split at h
      · cases h
      · cases h
      · rename_i vals' hrun
        rcases List.mem_cons.1 hm with rfl | hm
        · refine runSim_in_not_done F V _ ?_ order hin _ _ hrun
          intro s v; rw [htick]; split <;> simp
        · split at h
          · cases h
          · split at h
            · cases h
            · cases h
            · rename_i st2 recs2 hb
              exact ih _ _ hm hb
  split at h
  · cases h
  · rename_i hx; split at hx
    · cases hx
    · cases h
    · cases h
  · rename_i hx
    split at hx
    · cases hx
    · cases hx
    · rename_i hb
      exact hbatch _ _ _ (List.mem_range.2 (by omega)) hb

/-- A line the format does not allow: non-empty, without separator, or with an empty name or value. -/
def Malformed (l : List Char) : Prop :=
  l ≠ [] ∧ (' ' ∉ l ∨ l.head? = some ' ' ∨ ∃ nm, ' ' ∉ nm ∧ l = nm ++ [' '])

theorem splitLine_malformed {l : List Char} (h : Malformed l) : l ≠ [] ∧ splitLine l = none := by
  obtain ⟨hne, h⟩ := h
  refine ⟨hne, ?_⟩
  unfold splitLine
  rcases h with h | h | ⟨nm, hnm, rfl⟩
  · have : l.dropWhile (· ≠ ' ') = [] := by
      rw [List.dropWhile_eq_nil_iff]; intro c hc; simp; rintro rfl; exact h hc
    rw [this]
  · cases l with
    | nil => simp at h
    | cons c l => simp at h; subst h; simp
  · have e2 : (nm ++ [' ']).dropWhile (· ≠ ' ') = [' '] := by
      rw [List.dropWhile_append_of_pos]
      · simp
      · intro c hc; simp; rintro rfl; exact hnm hc
    rw [e2]; simp

/-- **C51 (finding).**  A malformed line inside (or after) a valid document makes the whole simulation *succeed*
with no tick at all: everything read before it is silently discarded. -/
theorem malformed_line_discards_everything (F : FloatOps) (V : Nat → NodeV) (order it : List Nat)
    (doc : List Block) (ls : List (List Char)) (hdoc : Renders doc ls) (hlen : doc.length ≤ 200)
    (bad : List Char) (hbad : Malformed bad) (rest : List (List Char)) :
    simulateLines F V order it (ls ++ bad :: rest) = .ok (some ⟨[], [], 1⟩) := by
  obtain ⟨h1, h2⟩ := splitLine_malformed hbad
  have : readInput (ls ++ bad :: rest) (fun _ => none) = .ok (0, applyDoc (fun _ => none) 0 doc, rest) := by
    unfold readInput
    obtain ⟨h3, h4⟩ := readLoop_doc_append hdoc (bad :: rest) 0 false (fun _ => none) (by unfold bufSize; omega)
    have : 0 + doc.length - 1 < bufSize := by unfold bufSize; omega
    rw [h3]
    simp only [readLoop, this, h1, h2, if_true, if_false]
  unfold simulateLines
  rw [drvLoop_done F V order it _ _ _ _ _ _ this]
  rfl

/-! ### Non-vacuity: two ticks of `y = mux(s, (a + b, a - b))` -/

def exDoc : List Block := [[("a", 5), ("b", 7), ("s", 1)], [("a", 1), ("b", 2), ("a", 3)]]

def exLines : List (List Char) :=
  ["a 0x5".toList, "b 7".toList, "s 1".toList, [], "a 1".toList, "b 2".toList, "a 0X3".toList]

theorem hexNum_one {c : Char} {d : Nat} (h : IsHexDigit c d) : HexNum [c] d := by
  have := HexNum.snoc HexNum.nil h; simpa using this

theorem exRenders : Renders exDoc exLines := by
  have l1 : ∀ (nm : String) (c : Char) (d : Nat) (pre : List Char), nm ≠ "" → ' ' ∉ nm.toList → '\n' ∉ nm.toList →
      IsHexDigit c d → d < 2^64 → (pre = [] ∨ pre = ['0', 'x'] ∨ pre = ['0', 'X']) →
      LineOf (nm, BitVec.ofNat 64 d) (nm.toList ++ ' ' :: (pre ++ [c])) := by
    intro nm c d pre h1 h2 h3 h4 h5 h6
    refine ⟨h1, h2, h3, pre ++ [c], ⟨[c], by simp, ?_, ?_⟩, rfl⟩
    · rw [BitVec.toNat_ofNat, Nat.mod_eq_of_lt h5]; exact hexNum_one h4
    · rcases h6 with rfl | rfl | rfl <;> simp
  refine .more (rest := ["a 1".toList, "b 2".toList, "a 0X3".toList])
    (ls := ["a 0x5".toList, "b 7".toList, "s 1".toList]) ?_ (.last ?_)
  · exact .cons (l1 "a" '5' 5 ['0', 'x'] (by decide) (by decide) (by decide) (.inl rfl) (by decide) (by simp))
      (.cons (l1 "b" '7' 7 [] (by decide) (by decide) (by decide) (.inl rfl) (by decide) (by simp))
      (.cons (l1 "s" '1' 1 [] (by decide) (by decide) (by decide) (.inl rfl) (by decide) (by simp)) .nil))
  · exact .cons (l1 "a" '1' 1 [] (by decide) (by decide) (by decide) (.inl rfl) (by decide) (by simp))
      (.cons (l1 "b" '2' 2 [] (by decide) (by decide) (by decide) (.inl rfl) (by decide) (by simp))
      (.cons (l1 "a" '3' 3 ['0', 'X'] (by decide) (by decide) (by decide) (.inl rfl) (by decide) (by simp)) .nil))

example : Malformed "a=5".toList ∧ Malformed " 5".toList ∧ Malformed "a ".toList :=
  ⟨⟨by decide, .inl (by decide)⟩, ⟨by decide, .inr (.inl (by decide))⟩,
    ⟨by decide, .inr (.inr ⟨['a'], by decide, by decide⟩)⟩⟩

/-- The two-tick document is simulated: it meets every hypothesis of `simulate_document` and succeeds. -/
example (F : FloatOps) :
    ∃ vcd, simulateLines F exV [2, 0, 1, 4, 3, 5, 6] [2, 0, 1, 4, 3, 5, 6] exLines = .ok (some vcd) := by
  have hnw : ∀ i < exDoc.length, NoWrap F exV (docTick exDoc i) [2, 0, 1, 4, 3, 5, 6] := by
    intro i hi n hn hop s hs hd
    simp only [List.mem_cons, List.not_mem_nil, or_false] at hn
    rcases hn with rfl | rfl | rfl | rfl | rfl | rfl | rfl <;> simp [exV] at hop
    simp [exV, NodeV.srcs] at hs
    subst hs
    have hi : i = 0 ∨ i = 1 := by simp [exDoc] at hi; omega
    cases hd with
    | node _ val _ _ hv =>
      rcases hi with rfl | rfl <;> revert hv <;> simp only [exV, Means] <;> decide
  refine simulate_document_succeeds F exV _ _ exOrder exShape (List.Perm.refl _) exDoc exLines exRenders
    ⟨_, List.mem_cons_self, by simp⟩ (by decide) hnw ?_ (by decide)
  intro i hi n hn
  have hrun : ∃ vals', runSim F exV [2, 0, 1, 4, 3, 5, 6] (fun _ => none) (docTick exDoc i) = .done vals' := by
    have hi : i = 0 ∨ i = 1 := by simp [exDoc] at hi; omega
    rcases hi with rfl | rfl <;> exact ⟨_, rfl⟩
  obtain ⟨vals', hr⟩ := hrun
  obtain ⟨v, _, hv⟩ := runSim_computes_dataflow F exV _ _ _ _ exOrder exShape (hnw i hi) hr n hn
  exact ⟨v, hv⟩

/-- Documents of every length exist, so the over-200 theorem is not vacuous. -/
theorem long_document (n : Nat) : ∃ lines, Renders (List.replicate (n + 1) [("a", (5 : Word))]) lines := by
  have hb : List.Forall₂ LineOf [("a", (5 : Word))] ["a 5".toList] :=
    .cons ⟨by decide, by decide, by decide, ['5'], ⟨['5'], by simp, hexNum_one (.inl rfl), .inl rfl⟩, rfl⟩ .nil
  induction n with
  | zero => exact ⟨_, .last hb⟩
  | succ n ih =>
    obtain ⟨ls, hl⟩ := ih
    exact ⟨_, .more hb hl⟩

example : ∃ doc lines, Renders doc lines ∧ 200 < doc.length ∧ ∃ b ∈ doc.take 200, b ≠ [] := by
  obtain ⟨ls, h⟩ := long_document 200
  refine ⟨_, ls, h, by rw [List.length_replicate]; omega, [("a", 5)], ?_, by simp⟩
  rw [List.take_replicate, List.mem_replicate]
  exact ⟨by omega, rfl⟩

end Verif.Dfcxx
