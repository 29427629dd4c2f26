import Verif.Dfcxx.SimIO
import Verif.Dfcxx.SimIOSpec
import Mathlib.Tactic.IntervalCases
import Mathlib.Data.List.Induction
/- Helper lemmas for the simulator I/O properties. -/
namespace Verif.Dfcxx

theorem hexVal_of_isHexDigit {c : Char} {d : Nat} (h : IsHexDigit c d) : hexVal c = some d := by
  have hd : d < 16 := by
    rcases h with h | h
    · have := (List.getElem?_eq_some_iff.1 h).1; simpa using this
    · have := (List.getElem?_eq_some_iff.1 h).1; simpa using this
  interval_cases d <;> rcases h with h | h <;> simp at h <;> subst h <;> decide

theorem hexRun_append {cs : List Char} (h : ∀ c ∈ cs, (hexVal c).isSome) (c : Char) (d : Nat) (hc : hexVal c = some d) :
    hexRun (cs ++ [c]) = hexRun cs ++ [d] := by
  induction cs with
  | nil => simp [hexRun, hc]
  | cons a cs ih =>
    obtain ⟨x, hx⟩ := Option.isSome_iff_exists.1 (h a (by simp))
    simp only [List.cons_append, hexRun, hx]
    rw [ih (fun c hc => h c (by simp [hc]))]

theorem hexNum_run {cs : List Char} {n : Nat} (h : HexNum cs n) :
    (∀ c ∈ cs, (hexVal c).isSome) ∧ (hexRun cs).foldl (fun a d => 16 * a + d) 0 = n ∧
      (hexRun cs).length = cs.length := by
  induction h with
  | nil => simp [hexRun]
  | @snoc cs n c d h hd ih =>
    obtain ⟨h1, h2, h3⟩ := ih
    have hc := hexVal_of_isHexDigit hd
    refine ⟨?_, ?_, ?_⟩
    · intro x hx
      rcases List.mem_append.1 hx with hx | hx
      · exact h1 x hx
      · simp only [List.mem_singleton] at hx; subst hx; simp [hc]
    · rw [hexRun_append h1 c d hc]; simp [h2]
    · rw [hexRun_append h1 c d hc]; simp [h3]

theorem hexVal_not {c : Char} (h : (hexVal c).isSome) : isSpaceC c = false ∧ c ≠ '-' ∧ c ≠ '+' ∧ c ≠ 'x' ∧ c ≠ 'X' ∧ c ≠ '\n' := by
  refine ⟨?_, ?_, ?_, ?_, ?_, ?_⟩
  · rcases hb : isSpaceC c with _ | _
    · rfl
    · exfalso
      simp only [isSpaceC, Bool.or_eq_true, decide_eq_true_eq] at hb
      rcases hb with ((((rfl | rfl) | rfl) | rfl) | rfl) | rfl <;> revert h <;> decide
  all_goals (rintro rfl; revert h; decide)

theorem stoul16_of_valueText {txt : List Char} {v : Word} (h : ValueText txt v) : stoul16 txt = .ok v := by
  obtain ⟨ds, hne, hn, ht⟩ := h
  obtain ⟨h1, h2, h3⟩ := hexNum_run hn
  have hrun : hexRun ds ≠ [] := by
    intro h0; rw [h0] at h3; exact hne (List.length_eq_zero_iff.1 h3.symm)
  have fin : ∀ t, dropSign (t.dropWhile isSpaceC) = (false, t) → dropHexPrefix t = ds → stoul16 t = .ok v := by
    intro t e1 e2
    simp only [stoul16, e1, e2, h2, hrun, if_false]
    have : ¬ 2^64 ≤ v.toNat := by have := v.isLt; omega
    rw [if_neg this]; simp
  rcases ht with rfl | rfl | rfl
  · cases txt with
    | nil => exact absurd rfl hne
    | cons c cs =>
      have hc := hexVal_not (h1 c (by simp))
      refine fin _ ?_ ?_
      · rw [List.dropWhile_cons_of_neg (by simp [hc.1])]
        unfold dropSign
        split
        · exact absurd (by simp_all) hc.2.1
        · exact absurd (by simp_all) hc.2.2.1
        · rfl
      · unfold dropHexPrefix
        split
        · rename_i x d r heq
          have hx := hexVal_not (h1 x (by simp [heq]))
          rw [if_neg (fun hh => by rcases hh.1 with h | h; exacts [hx.2.2.2.1 h, hx.2.2.2.2.1 h]), heq]
        · rfl
  all_goals
    refine fin _ (by rfl) ?_
    cases ds with
    | nil => exact absurd rfl hne
    | cons c cs => simp [dropHexPrefix, h1 c (by simp)]

theorem splitLine_of_lineOf {a : String × Word} {l : List Char} (h : LineOf a l) :
    l ≠ [] ∧ ∃ txt, splitLine l = some (a.1, txt) ∧ stoul16 txt = .ok a.2 := by
  obtain ⟨h1, h2, _, txt, h3, rfl⟩ := h
  refine ⟨by simp, txt, ?_, stoul16_of_valueText h3⟩
  have hne : txt ≠ [] := by
    obtain ⟨ds, hne, _, ht⟩ := h3
    rcases ht with rfl | rfl | rfl <;> simp [hne]
  have e1 : (a.1.toList ++ ' ' :: txt).takeWhile (· ≠ ' ') = a.1.toList := by
    rw [List.takeWhile_append_of_pos]
    · simp
    · intro c hc; simp; rintro rfl; exact h2 hc
  have e2 : (a.1.toList ++ ' ' :: txt).dropWhile (· ≠ ' ') = ' ' :: txt := by
    rw [List.dropWhile_append_of_pos]
    · simp
    · intro c hc; simp; rintro rfl; exact h2 hc
  have hn : a.1.toList ≠ [] := by simpa using h1
  simp only [splitLine, e1, e2, hne, hn, or_self, if_false, String.ofList_toList]

/-- Effect of a block's assignments on slot `ind`. -/
def applyBlock (d : InData) (ind : Nat) (b : Block) : InData := b.foldl (fun d p => d.set p.1 ind p.2) d

theorem readLoop_block {b : Block} {ls : List Line} (h : List.Forall₂ LineOf b ls) (rest : List Line) (ind : Nat)
    (hi : ind < bufSize) : ∀ (al : Bool) (d : InData),
    readLoop (ls ++ rest) ind al d = readLoop rest ind (al || !b.isEmpty) (applyBlock d ind b) := by
  induction h with
  | nil => intro al d; simp [applyBlock]
  | cons hl _ ih =>
    intro al d
    obtain ⟨h1, txt, h2, h3⟩ := splitLine_of_lineOf hl
    simp only [List.cons_append, readLoop, hi, if_true, h1, if_false, h2, h3]
    rw [ih]; simp [applyBlock]

/-- Effect of a document starting at slot `ind`. -/
def applyDoc : InData → Nat → List Block → InData
  | d, _, [] => d
  | d, ind, b :: doc => applyDoc (applyBlock d ind b) (ind + 1) doc

theorem readLoop_doc_append {doc : List Block} {ls : List Line} (h : Renders doc ls) (sfx : List Line) :
    ∀ (ind : Nat) (al : Bool) (d : InData), ind + doc.length ≤ bufSize →
    readLoop (ls ++ sfx) ind al d = readLoop sfx (ind + doc.length - 1) (al || doc.any (fun b => !b.isEmpty))
      (applyDoc d ind doc) ∧ 0 < doc.length := by
  induction h with
  | last h =>
    intro ind al d hb
    simp only [List.length_cons, List.length_nil] at hb
    rw [readLoop_block h sfx ind (by omega) al d]
    simp [applyDoc]
  | @more b ls doc rest h hr ih =>
    intro ind al d hb
    simp only [List.length_cons] at hb
    have hi : ind < bufSize := by omega
    rw [List.append_assoc, readLoop_block h _ ind hi al d]
    simp only [List.cons_append, readLoop, hi, if_true]
    have := ih (ind + 1) (al || !b.isEmpty) (applyBlock d ind b) (by omega)
    rw [this.1]
    have e : ind + 1 + doc.length = ind + (doc.length + 1) := by omega
    simp only [applyDoc, List.any_cons, List.length_cons, Bool.or_assoc, e]
    simp

theorem readLoop_doc {doc : List Block} {ls : List Line} (h : Renders doc ls)
    (ind : Nat) (al : Bool) (d : InData) (hb : ind + doc.length ≤ bufSize) :
    readLoop ls ind al d = .ok (if al || doc.any (fun b => !b.isEmpty) then ind + doc.length else 0,
      applyDoc d ind doc, []) := by
  have := readLoop_doc_append h [] ind al d hb
  rw [List.append_nil] at this
  rw [this.1]; simp only [readLoop]
  have e : ind + doc.length - 1 + 1 = ind + doc.length := by omega
  rw [e]

theorem set_some (d : InData) (nm m : String) (ind : Nat) (v : Word) :
    (d.set nm ind v m).isSome = ((d m).isSome || decide (nm = m)) := by
  unfold InData.set
  split
  · rename_i h; subst h; simp
  · rename_i h
    have : ¬ nm = m := fun h' => h h'.symm
    simp [this]

/-- Slot `j` of name `m`; 0 when absent. -/
def slot (d : InData) (m : String) (j : Nat) : Word := ((d m).getD (fun _ => 0)) j

theorem slot_set (d : InData) (nm m : String) (ind j : Nat) (v : Word) :
    slot (d.set nm ind v) m j = if m = nm ∧ j = ind then v else slot d m j := by
  unfold slot InData.set
  by_cases h : m = nm
  · subst h; simp
  · simp [h]

theorem lastValue_append (b : Block) (p : String × Word) (m : String) :
    lastValue (b ++ [p]) m = if p.1 = m then some p.2 else lastValue b m := by
  unfold lastValue
  simp only [List.reverse_append, List.reverse_cons, List.reverse_nil, List.nil_append, List.singleton_append]
  rw [List.find?_cons]
  by_cases h : p.1 = m <;> simp [h]

theorem applyBlock_append (d : InData) (ind : Nat) (b : Block) (p : String × Word) :
    applyBlock d ind (b ++ [p]) = (applyBlock d ind b).set p.1 ind p.2 := by
  simp [applyBlock]

theorem applyBlock_spec (d : InData) (ind : Nat) (b : Block) (m : String) :
    ((applyBlock d ind b m).isSome = ((d m).isSome || b.any (fun p => decide (p.1 = m)))) ∧
    (∀ j, slot (applyBlock d ind b) m j = if j = ind then (lastValue b m).getD (slot d m j) else slot d m j) := by
  induction b using List.reverseRecOn with
  | nil => simp [applyBlock, lastValue]
  | append_singleton b p ih =>
    rw [applyBlock_append]
    refine ⟨?_, ?_⟩
    · rw [set_some, ih.1]; simp [Bool.or_assoc]
    · intro j
      rw [slot_set, ih.2, lastValue_append]
      by_cases h1 : p.1 = m
      · subst h1; by_cases h2 : j = ind <;> simp [h2]
      · have h1' : ¬ m = p.1 := fun h => h1 h.symm
        simp [h1, h1']

theorem applyDoc_spec (doc : List Block) : ∀ (d : InData) (ind : Nat) (m : String),
    ((applyDoc d ind doc m).isSome = ((d m).isSome || doc.any (fun b => b.any (fun p => decide (p.1 = m))))) ∧
    (∀ j, slot (applyDoc d ind doc) m j =
      if ind ≤ j then ((doc[j - ind]?).bind (lastValue · m)).getD (slot d m j) else slot d m j) := by
  induction doc with
  | nil => intro d ind m; simp [applyDoc]
  | cons b doc ih =>
    intro d ind m
    obtain ⟨h1, h2⟩ := ih (applyBlock d ind b) (ind + 1) m
    obtain ⟨h3, h4⟩ := applyBlock_spec d ind b m
    refine ⟨?_, ?_⟩
    · simp only [applyDoc, h1, h3, List.any_cons, Bool.or_assoc]
    · intro j
      simp only [applyDoc, h2, h4]
      by_cases hj : j = ind
      · subst hj; simp
      · by_cases hj2 : ind ≤ j
        · obtain ⟨k, rfl⟩ : ∃ k, j = ind + 1 + k := ⟨j - ind - 1, by omega⟩
          have e : ind + 1 + k - ind = k + 1 := by omega
          simp [hj, hj2, e]
        · have : ¬ ind + 1 ≤ j := by omega
          simp [hj, hj2, this]

theorem tickIn_applyDoc (doc : List Block) (i : Nat) (hi : i < bufSize) :
    tickIn (applyDoc (fun _ => none) 0 doc) i = docTick doc i := by
  funext m
  obtain ⟨h1, h2⟩ := applyDoc_spec doc (fun _ => none) 0 m
  have h2 := h2 i
  simp only [slot, Option.getD_none, Nat.zero_le, if_true, Nat.sub_zero, Option.isSome_none, Bool.false_or] at h1 h2
  unfold tickIn docTick
  cases hx : applyDoc (fun _ => none) 0 doc m with
  | none => rw [hx] at h1; simp at h1; simp; grind
  | some a =>
    rw [hx] at h1 h2
    simp only [Option.isSome_some, Option.getD_some] at h1 h2
    simp only [hi, if_true, ← h1, h2]

theorem valueToBinary_ok (v : Word) (w : Nat) (hw : w ≤ 64) :
    ∃ cs, valueToBinary v w = .ok cs ∧ BinText cs w v := by
  have hm : ∀ (l : List Nat), (∀ i ∈ l, w - 1 - i < 64) →
      (l.mapM (m := Except Fault) fun bitId =>
        (let sh := w - 1 - bitId
         if sh < 64 then .ok (Char.ofNat (((v >>> sh) &&& 1).toNat + 48)) else .error .ub : Except Fault Char)) =
      .ok (l.map fun i => if v.getLsbD (w - 1 - i) then '1' else '0') := by
    intro l
    induction l with
    | nil => intro _; rfl
    | cons a l ih =>
      intro h
      have ha := h a (by simp)
      have e : Char.ofNat (((v >>> (w - 1 - a)) &&& 1).toNat + 48) = if v.getLsbD (w - 1 - a) then '1' else '0' := by
        have : ((v >>> (w - 1 - a)) &&& 1) = if v.getLsbD (w - 1 - a) then 1 else 0 := by
          apply BitVec.eq_of_getLsbD_eq
          intro i hi
          by_cases h0 : i = 0
          · subst h0; cases hb : v.getLsbD (w - 1 - a) <;> simp [hb]
          · cases hb : v.getLsbD (w - 1 - a) <;> simp [h0]
        rw [this]; split <;> decide
      rw [List.mapM_cons, ih (fun i hi => h i (by simp [hi]))]
      simp only [ha, if_true, e]
      rfl
  refine ⟨(List.range w).map fun i => if v.getLsbD (w - 1 - i) then '1' else '0', ?_, ?_, ?_, ?_⟩
  · unfold valueToBinary
    exact hm _ (fun i hi => by have := List.mem_range.1 hi; omega)
  · simp
  · intro c hc
    obtain ⟨i, _, rfl⟩ := List.mem_map.1 hc
    split <;> simp
  · unfold binVal
    have key : ∀ k, k ≤ w → ((List.range k).map fun i => if v.getLsbD (w - 1 - i) then '1' else '0').foldl
        (fun a c => 2 * a + (if c = '1' then 1 else 0)) 0 = v.toNat % 2^w / 2^(w - k) := by
      intro k
      induction k with
      | zero => intro _; simp [Nat.div_eq_of_lt (Nat.mod_lt _ (Nat.two_pow_pos w))]
      | succ k ih =>
        intro hk
        rw [List.range_succ, List.map_append, List.foldl_append, ih (by omega)]
        simp only [List.map_cons, List.map_nil, List.foldl_cons, List.foldl_nil]
        have e1 : w - k = (w - (k+1)) + 1 := by omega
        have e2 : w - 1 - k = w - (k+1) := by omega
        rw [e1, e2, Nat.pow_succ, ← Nat.div_div_eq_div_mul]
        generalize hM : w - (k+1) = M
        have hb : v.getLsbD M = (v.toNat % 2^w).testBit M := by
          rw [Nat.testBit_mod_two_pow]; simp [BitVec.getLsbD]; omega
        rw [hb, Nat.testBit_eq_decide_div_mod_eq]
        generalize v.toNat % 2^w / 2^M = x
        by_cases hx : x % 2 = 1 <;> simp [hx] <;> omega
    have := key w (le_refl _)
    simpa using this

theorem getlines_join (ls : List Line) (h : ∀ l ∈ ls, '\n' ∉ l) : getlines (ls.flatMap (· ++ ['\n'])) = ls := by
  induction ls with
  | nil => rfl
  | cons l ls ih =>
    have ih := ih (fun l hl => h l (by simp [hl]))
    replace h := h l (by simp)
    rw [List.flatMap_cons]
    generalize ls.flatMap (· ++ ['\n']) = R at ih
    induction l with
    | nil => simp [getlines, ih]
    | cons c l ihl =>
      simp only [List.mem_cons, not_or] at h
      have := ihl h.2
      simp only [List.cons_append, getlines, this]
      rw [if_neg (fun hc => h.1 hc.symm)]

theorem toString_nat_inj {a b : Nat} (h : toString a = toString b) : a = b := by
  have h : Nat.repr a = Nat.repr b := h
  rw [Nat.repr_eq_ofList_toDigits, Nat.repr_eq_ofList_toDigits] at h
  have h := String.ofList_injective h
  have := congrArg (fun l => Nat.ofDigitChars 10 l 0) h
  simpa [Nat.ofDigitChars_ten_toDigits] using this

end Verif.Dfcxx
