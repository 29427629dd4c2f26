import Verif.Kernels.Galois
import Verif.Std.Galois
import Mathlib.Data.List.GetD
/-
What `KuznechikEncoder` and `KuznechikDecoder` build.
-/
namespace Verif.Kernels
open Verif.Dfcxx Verif.Flow

section
variable {F : FloatOps} {Z : String → Prop} {N : List Nat} {w : World}

theorem piTables_len : Std.piTable.length = 256 ∧ Std.piInvTable.length = 256 := by decide +kernel

theorem tablePermut_does (hg : Good F Z N w) {val : Nat} {x : (Nat → Pat) → BitVec 8} (hx : Str Z w val x) (inv : Bool) :
    Does F Z N (tablePermut F val inv) w (fun n w' => Str Z w' n (fun ρ => Std.tablePermut (x ρ) inv)) := by
  unfold tablePermut Std.tablePermut
  cases inv
  · exact muxConsts_does hg (by omega) (by omega) hx _ (by rw [piTables_len.1]; decide)
  · exact muxConsts_does hg (by omega) (by omega) hx _ (by rw [piTables_len.2]; decide)

/-- The low 128 bits of variable `n` are `y`. -/
structure Low (Z : String → Prop) (w : World) (n : Nat) (y : (Nat → Pat) → BitVec 128) : Prop where
  out : ∃ (k : Nat) (x : (Nat → Pat) → BitVec k), 128 ≤ k ∧ k < 65536 ∧ Str Z w n x ∧ ∀ ρ, (x ρ).extractLsb' 0 128 = y ρ

theorem Low.mono {ps : List (String × Nat)} {w' : World} {n : Nat} {y : (Nat → Pat) → BitVec 128} (h : Low Z w n y) (st : Step ps w w') : Low Z w' n y := by
  obtain ⟨k, x, h1, h2, h3, h4⟩ := h.out
  exact ⟨k, x, h1, h2, h3.mono st, h4⟩

theorem Str.low {n : Nat} {y : (Nat → Pat) → BitVec 128} (h : Str Z w n y) : Low Z w n y :=
  ⟨128, y, by omega, by omega, h, fun ρ => by simp⟩

theorem Low.bits (hg : Good F Z N w) {a : Nat} {y : (Nat → Pat) → BitVec 128} (h : Low Z w a y) {hi lo m : Nat} (hm : hi + 1 = lo + m) (hle : lo ≤ hi)
    (hlt : hi < 128) : Does F Z N (call1 F (.bits a hi lo)) w (fun n w' => Str Z w' n (fun ρ => (y ρ).extractLsb' lo m)) := by
  obtain ⟨k, x, h1, h2, h3, h4⟩ := h.out
  refine (hg.bits h3.val h3.here (hi := hi) (lo := lo) (m := m) (by omega) hle (by omega)).weaken fun n w1 _ _ q => q.congr fun ρ _ => ?_
  rw [← h4 ρ]
  apply BitVec.eq_of_getLsbD_eq
  intro i hi'
  have h5 : lo + i < 128 := by omega
  simp [BitVec.getLsbD_extractLsb', hi', h5]

theorem slice_does (hg : Good F Z N w) {val : Nat} {x : (Nat → Pat) → BitVec 128} (hx : Low Z w val x) {i : Nat} (hi : i < 16) :
    Does F Z N (call1 F (.bits val (127 - 8 * i) (127 - 8 * i - 7))) w (fun n w' => Str Z w' n (fun ρ => Std.slice (x ρ) i)) := by
  have e : 127 - 8 * i - 7 = 120 - 8 * i := by omega
  refine (hx.bits hg (hi := 127 - 8 * i) (lo := 127 - 8 * i - 7) (m := 8) (by omega) (by omega) (by omega)).weaken
    fun n w1 _ _ q => ?_
  unfold Std.slice
  rw [← e]
  exact q

theorem low_append {m n k : Nat} {x : BitVec m} {y : BitVec n} (h : x.extractLsb' 0 n = y) (c : BitVec k) :
    (x ++ c).extractLsb' 0 (n + k) = y ++ c := by
  rw [← h]
  apply BitVec.eq_of_getLsbD_eq
  intro i hi
  simp only [BitVec.getLsbD_extractLsb', hi, decide_true, Bool.true_and, Nat.zero_add, BitVec.getLsbD_append]
  split
  · rfl
  · rw [decide_eq_true (show i - k < n by omega), Bool.true_and]

theorem cat16_low (a : BitVec 8) (f : Nat → BitVec 8) :
    (a ++ f 0 ++ f 1 ++ f 2 ++ f 3 ++ f 4 ++ f 5 ++ f 6 ++ f 7 ++ f 8 ++ f 9 ++ f 10 ++ f 11 ++ f 12 ++ f 13 ++ f 14 ++ f 15 : BitVec 136).extractLsb' 0 128 =
      Std.cat16 f := by
  have h0 : (a ++ f 0).extractLsb' 0 8 = f 0 := by
    apply BitVec.eq_of_getLsbD_eq
    intro i hi
    rw [BitVec.getLsbD_extractLsb', BitVec.getLsbD_append, Nat.zero_add, if_pos hi, decide_eq_true hi, Bool.true_and]
  exact low_append (low_append (low_append (low_append (low_append (low_append (low_append (low_append (low_append (low_append (low_append
    (low_append (low_append (low_append (low_append h0 _) _) _) _) _) _) _) _) _) _) _) _) _) _) _

theorem sLayer_does (hg : Good F Z N w) {val : Nat} {x : (Nat → Pat) → BitVec 128} (hx : Str Z w val x) (twice inv : Bool) :
    Does F Z N (sLayer F twice val inv) w (fun n w' => Low Z w' n (fun ρ => Std.kS (x ρ) inv) ∧
      (twice = false → Str Z w' n (fun ρ => Std.kS (x ρ) inv))) := by
  unfold sLayer
  refine (slice_does hg hx.low (i := 0) (by omega)).bind fun b w1 g1 s1 q1 => ?_
  refine (tablePermut_does g1 q1 inv).bind fun sub w2 g2 s2 q2 => ?_
  have key : ∀ l : List Nat, (∀ i ∈ l, i < 16) → 8 + 8 * l.length < 65536 → _ := fun l hl hlen => catLoop_does (m := 8) (f := fun i => do
    let b ← call1 F (.bits val (127 - 8 * i) (127 - 8 * i - 7))
    tablePermut F b inv) (v := fun i ρ => Std.tablePermut (Std.slice (x ρ) i) inv) l sub
    ⟨8, _⟩ w2 g2 q2 (show 8 + 8 * l.length < 65536 from hlen) fun i hi w3 g3 s3 => by
      exact (slice_does g3 (((hx.mono s1).mono s2).mono s3).low (hl i hi)).bind fun b w4 g4 s4 q4 => tablePermut_does g4 q4 inv
  simp only [bind_assoc] at key
  cases twice
  · refine (key (List.range' 1 15) (fun i hi => by simp at hi; omega) (by decide)).weaken fun n w3 _ _ q => ?_
    have q' : Str Z w3 n (fun ρ => Std.kS (x ρ) inv) := q
    exact ⟨q'.low, fun _ => q'⟩
  · refine (key (List.range 16) (fun i hi => by simpa using hi) (by decide)).weaken fun n w3 _ _ q => ?_
    exact ⟨⟨136, _, by omega, by omega, q, fun ρ => cat16_low _ fun i => Std.tablePermut (Std.slice (x ρ) i) inv⟩, by simp⟩

/-! ### Instances -/

theorem newVar_does {v : Nat} (hl : w.Live v) (h : (w.node v).op = .NONE) (hk : (w.node v).kern = w.cur) {w' : World} (hg : Good F Z (v :: N) w')
    (st : Step [] w w') (hlt : v < w.next) : (w'.node v).op = .NONE ∧ (w'.node v).kern = w'.cur := by
  obtain ⟨hl', -⟩ := hg.pend v (by simp)
  obtain ⟨-, f1, -, -, -, -, f6⟩ := st.keep v hlt hl'
  exact ⟨by rw [f1]; exact h, by rw [f6, hk, st.cur]⟩

theorem inst_does {C : World → Prop} {p : Build Unit} {ins : List (String × Nat)} {out : String} {k v : Nat} {f : List Pat → BitVec k}
    (hc : Contract F Z C p ins out k f) (hg : Good F Z (v :: N) w) (hvN : v ∉ N) (hvn : (w.node v).op = .NONE) (hvk : (w.node v).kern = w.cur)
    {args : List Nat} (ha : List.Forall₂ (Arg Z w) ins args) (hC : C (begun w)) {bs : List (Nat × String)}
    (hbs : bs = args.zip (ins.map Prod.fst) ++ [(v, out)]) {j : Nat} (hj : j = args.length) :
    ∃ hs w', inst F p bs w = .ok (hs, w') ∧ Good F Z N w' ∧ Step [] w w' ∧ Str Z w' (hs.getD j 0) (fun ρ => f (args.map ρ)) := by
  obtain ⟨h, w', e1, e2, e3, e4⟩ := hc.inst hg hvN hvn hvk ha hC
  refine ⟨args ++ [h], w', by rw [hbs]; exact e1, e2, e3, ?_⟩
  have : (args ++ [h]).getD j 0 = h := by subst hj; simp
  rw [this]
  exact e4

theorem kMul_opt_some (i : Nat) (hi : i < 16) : (Std.kuznechikGalois8Mul (Std.optConsts.getD i 0) 0).isSome := by
  interval_cases i <;> rfl

/-- A byte is the value of its variable. -/
theorem arg_val {k : Nat} {n : Nat} {e : (Nat → Pat) → BitVec k} (h : Val w n e) {ρ : Nat → Pat} (hs : Sat w ρ) : BitVec.ofNat k (ρ n).2 = e ρ := by
  rw [h.val ρ hs]
  show BitVec.ofNat k (e ρ).toNat = e ρ
  simp

/-- Products by coefficients, optimized: the variable first, or the slice first. -/
theorem mulOpt_var_does (hz : ¬ Z "in") (hg : Good F Z N w) {val : Nat} {x : (Nat → Pat) → BitVec 128} (hx : Low Z w val x) {i : Nat} (hi : i < 16) :
    Does F Z N (mulOpt F val i) w
      (fun n w' => Str Z w' n (fun ρ => Std.kMul true i (Std.slice (x ρ) i))) := by
  obtain ⟨v, w1, e1, v1, g1, s1, l1, n1, k1⟩ := hg.newVar (uint 8)
  obtain ⟨sl, w2, e2, g2, s2, q2⟩ := slice_does g1 (hx.mono s1) hi
  obtain ⟨n2, k2⟩ := newVar_does l1 n1 k1 g2 s2 (live_lt g1.inv.st l1)
  obtain ⟨hs, w3, e3, g3, s3, q3⟩ := inst_does (kuznGalois_contract hz (kMul_opt_some i hi)) g2 v1 n2 k2 (args := [sl])
    (.cons (q2.arg "in") .nil) trivial (bs := [(sl, "in"), (v, "out")]) rfl (j := 1) rfl
  refine ⟨_, w3, ?_, g3, (s1.trans s2).trans s3, q3.congr fun ρ hs => ?_⟩
  · unfold mulOpt; rw [build_bind e1, build_bind e2, build_bind e3]; rfl
  · show (Std.kuznechikGalois8Mul _ (BitVec.ofNat 8 (ρ sl).2)).getD 0 = _
    rw [arg_val (q2.mono s3).val hs]
    rfl

theorem mulOpt_slice_does (hz : ¬ Z "in") (hg : Good F Z N w) {val : Nat} {x : (Nat → Pat) → BitVec 128} (hx : Low Z w val x) :
    Does F Z N (mulOptFirst F val) w
      (fun n w' => Str Z w' n (fun ρ => Std.kMul true 0 (Std.slice (x ρ) 0))) := by
  obtain ⟨sl, w1, e1, g1, s1, q1⟩ := slice_does hg hx (i := 0) (by omega)
  obtain ⟨v, w2, e2, v2, g2, s2, l2, n2, k2⟩ := g1.newVar (uint 8)
  have q2 := q1.mono s2
  obtain ⟨hs, w3, e3, g3, s3, q3⟩ := inst_does (kuznGalois_contract hz (kMul_opt_some 0 (by omega))) g2 v2 n2 k2 (args := [sl])
    (.cons (q2.arg "in") .nil) trivial (bs := [(sl, "in"), (v, "out")]) rfl (j := 1) rfl
  refine ⟨_, w3, ?_, g3, (s1.trans s2).trans s3, q3.congr fun ρ hs => ?_⟩
  · unfold mulOptFirst; rw [build_bind e1, build_bind e2, build_bind e3]; rfl
  · show (Std.kuznechikGalois8Mul _ (BitVec.ofNat 8 (ρ sl).2)).getD 0 = _
    rw [arg_val (q2.mono s3).val hs]
    rfl

/-- The same, classic: the coefficient is a constant, bound to "left". -/
theorem mulPlain_var_does (hz : ¬ Z "right") (hzl : Z "left") (hg : Good F Z N w) (hcur : w.cur = 0) {val : Nat} {cs : List Nat} {x : (Nat → Pat) → BitVec 128}
    (hx : Low Z w val x) {i : Nat} (hi : i < 16) (hc : Cst w (cs.getD i 0) (BitVec.ofNat 8 (Std.plainConsts.getD i 0))) :
    Does F Z N (mulPlain F cs val i) w
      (fun n w' => Str Z w' n (fun ρ => Std.kMul false i (Std.slice (x ρ) i))) := by
  obtain ⟨v, w1, e1, v1, g1, s1, l1, n1, k1⟩ := hg.newVar (uint 8)
  obtain ⟨sl, w2, e2, g2, s2, q2⟩ := slice_does g1 (hx.mono s1) hi
  obtain ⟨n2, k2⟩ := newVar_does l1 n1 k1 g2 s2 (live_lt g1.inv.st l1)
  have c2 := (hc.mono s1).mono s2
  obtain ⟨hs, w3, e3, g3, s3, q3⟩ := inst_does (galois8Mul_contract hz) g2 v1 n2 k2 (args := [cs.getD i 0, sl])
    (.cons (c2.val.arg (by rw [c2.kern, s2.cur, s1.cur, hcur]) hzl) (.cons (q2.arg "right") .nil)) trivial
    (bs := [(cs.getD i 0, "left"), (sl, "right"), (v, "result")]) rfl (j := 2) rfl
  refine ⟨_, w3, ?_, g3, (s1.trans s2).trans s3, q3.congr fun ρ hs => ?_⟩
  · unfold mulPlain; rw [build_bind e1, build_bind e2, build_bind e3]; rfl
  · show Std.galois8Mul (BitVec.ofNat 8 (ρ (cs.getD i 0)).2) (BitVec.ofNat 8 (ρ sl).2) = _
    rw [arg_val (q2.mono s3).val hs, arg_val (c2.mono s3).val hs]
    rfl

theorem mulPlain_slice_does (hz : ¬ Z "right") (hzl : Z "left") (hg : Good F Z N w) (hcur : w.cur = 0) {val : Nat} {cs : List Nat}
    {x : (Nat → Pat) → BitVec 128} (hx : Low Z w val x) (hc : Cst w (cs.getD 0 0) (BitVec.ofNat 8 (Std.plainConsts.getD 0 0))) :
    Does F Z N (mulPlainFirst F cs val) w
      (fun n w' => Str Z w' n (fun ρ => Std.kMul false 0 (Std.slice (x ρ) 0))) := by
  obtain ⟨sl, w1, e1, g1, s1, q1⟩ := slice_does hg hx (i := 0) (by omega)
  obtain ⟨v, w2, e2, v2, g2, s2, l2, n2, k2⟩ := g1.newVar (uint 8)
  have q2 := q1.mono s2
  have c2 := (hc.mono s1).mono s2
  obtain ⟨hs, w3, e3, g3, s3, q3⟩ := inst_does (galois8Mul_contract hz) g2 v2 n2 k2 (args := [cs.getD 0 0, sl])
    (.cons (c2.val.arg (by rw [c2.kern, s2.cur, s1.cur, hcur]) hzl) (.cons (q2.arg "right") .nil)) trivial
    (bs := [(cs.getD 0 0, "left"), (sl, "right"), (v, "result")]) rfl (j := 2) rfl
  refine ⟨_, w3, ?_, g3, (s1.trans s2).trans s3, q3.congr fun ρ hs => ?_⟩
  · unfold mulPlainFirst; rw [build_bind e1, build_bind e2, build_bind e3]; rfl
  · show Std.galois8Mul (BitVec.ofNat 8 (ρ (cs.getD 0 0)).2) (BitVec.ofNat 8 (ρ sl).2) = _
    rw [arg_val (q2.mono s3).val hs, arg_val (c2.mono s3).val hs]
    rfl

/-! ### The layers.  Constants live in the top kernel, so the code works there only. -/

/-- What the code below needs of the names that may be bound to constants. -/
structure Names (Z : String → Prop) : Prop where
  left : Z "left"
  right : ¬ Z "right"
  inp : ¬ Z "in"
  block : ¬ Z "block"
  encoded : ¬ Z "encoded"
  key : ¬ Z "key"

theorem xorLoop_does {α : Type} {f : α → Build Nat} {v : α → (Nat → Pat) → BitVec 8} (l : List α) (s : Nat)
    (x : (Nat → Pat) → BitVec 8) (hg : Good F Z N w) (hs : Str Z w s x)
    (h : ∀ a ∈ l, ∀ w1, Good F Z N w1 → Step [] w w1 → Does F Z N (f a) w1 (fun n w' => Str Z w' n (v a))) :
    Does F Z N (foldB (fun s a => do
      let b ← f a
      call1 F (.bin .XOR s b)) l s) w (fun n w' => Str Z w' n (fun ρ => l.foldl (fun r a => r ^^^ v a ρ) (x ρ))) :=
  foldB_does (R := fun (s : Nat) (t : (Nat → Pat) → BitVec 8) w => Str Z w s t) (g := fun ρ r a => r ^^^ v a ρ) l s x w hg hs
    fun a ha _ _ w1 g1 s1 r1 => (h a ha w1 g1 s1).bind fun _ _ g2 s2 q2 => g2.xor (r1.mono s2).val q2.val (.inr (q2.notConst g2))

theorem mulMethod_does (hg : Good F Z N w) (hcur : w.cur = 0) {val : Nat} {cs : List Nat} {x : (Nat → Pat) → BitVec 128} (hx : Low Z w val x) {i : Nat}
    (hi : i < 16) (hc : Cst w (cs.getD i 0) (BitVec.ofNat 8 (Std.plainConsts.getD i 0))) :
    Does F Z N (mulMethod F cs val i) w (fun n w' => Str Z w' n (fun ρ => Std.kMul false i (Std.slice (x ρ) i))) := by
  unfold mulMethod
  refine (slice_does hg hx hi).bind fun sl w1 g1 s1 q1 => ?_
  exact galoisBody_const_does g1 (by rw [s1.cur, hcur]) (hc.mono s1) q1

/-- Which of the two functions of the model of the cipher a variant is an implementation of. -/
def MulBy.opt : MulBy → Bool
  | .table => true
  | _ => false

theorem consts_at {cs : List Nat} (q : List.Forall₂ (fun v n => Cst w n (BitVec.ofNat 8 v)) Std.plainConsts cs) (i : Nat) (hi : i < 16) :
    Cst w (cs.getD i 0) (BitVec.ofNat 8 (Std.plainConsts.getD i 0)) := by
  have hlt : i < Std.plainConsts.length := hi
  have := forall₂_getD q hlt
  rwa [show Std.plainConsts.getD i 0 = Std.plainConsts[i] by simp [List.getD, List.getElem?_eq_getElem hlt]]

theorem lGalois_does (hz : Names Z) (hg : Good F Z N w) (hcur : w.cur = 0) {val : Nat} {x : (Nat → Pat) → BitVec 128} (hx : Low Z w val x)
    (mul : MulBy) : Does F Z N (lGalois F mul val) w (fun n w' => Str Z w' n (fun ρ => Std.lGalois mul.opt (x ρ))) := by
  unfold lGalois
  cases mul
  case inst =>
    simp only
    unfold lGaloisPlain
    refine (consts_does hg (k := 8) (by omega) (by omega) Std.plainConsts).bind fun cs w1 g1 s1 q1 => ?_
    have hcs := consts_at q1
    have hcur1 : w1.cur = 0 := by rw [s1.cur]; exact hcur
    refine (mulPlain_slice_does hz.right hz.left g1 hcur1 (hx.mono s1) (hcs 0 (by omega))).bind fun r w2 g2 s2 q2 => ?_
    refine (xorLoop_does (v := fun i ρ => Std.kMul false i (Std.slice (x ρ) i)) (List.range' 1 15) r _ g2 q2 fun i hi w3 g3 s3 => ?_).weaken
      fun n w4 _ _ q => ?_
    · have hi' : i < 16 := by simp at hi; omega
      exact mulPlain_var_does hz.right hz.left g3 (by rw [s3.cur, s2.cur]; exact hcur1) (((hx.mono s1).mono s2).mono s3) hi'
        (((hcs i hi').mono s2).mono s3)
    · unfold Std.lGalois
      exact q
  case method =>
    simp only
    unfold lGaloisMethod
    refine (consts_does hg (k := 8) (by omega) (by omega) Std.plainConsts).bind fun cs w1 g1 s1 q1 => ?_
    have hcs := consts_at q1
    have hcur1 : w1.cur = 0 := by rw [s1.cur]; exact hcur
    refine (mulMethod_does g1 hcur1 (hx.mono s1) (by omega) (hcs 0 (by omega))).bind fun r w2 g2 s2 q2 => ?_
    refine (xorLoop_does (v := fun i ρ => Std.kMul false i (Std.slice (x ρ) i)) (List.range' 1 15) r _ g2 q2 fun i hi w3 g3 s3 => ?_).weaken
      fun n w4 _ _ q => ?_
    · have hi' : i < 16 := by simp at hi; omega
      exact mulMethod_does g3 (by rw [s3.cur, s2.cur]; exact hcur1) (((hx.mono s1).mono s2).mono s3) hi' (((hcs i hi').mono s2).mono s3)
    · unfold Std.lGalois
      exact q
  case table =>
    simp only
    unfold lGaloisOpt
    refine (mulOpt_slice_does hz.inp hg hx).bind fun r w2 g2 s2 q2 => ?_
    refine (xorLoop_does (v := fun i ρ => Std.kMul true i (Std.slice (x ρ) i)) (List.range' 1 15) r _ g2 q2 fun i hi w3 g3 s3 => ?_).weaken
      fun n w4 _ _ q => ?_
    · have hi' : i < 16 := by simp at hi; omega
      exact mulOpt_var_does hz.inp g3 ((hx.mono s2).mono s3) hi'
    · unfold Std.lGalois
      exact q

theorem rStep_does (hz : Names Z) (hg : Good F Z N w) (hcur : w.cur = 0) {val : Nat} {x : (Nat → Pat) → BitVec 128} (hx : Low Z w val x)
    (v : Variant) (inv : Bool) : Does F Z N (rStep F v val inv) w (fun n w' => Str Z w' n (fun ρ => Std.kR v.mul.opt (x ρ) inv)) := by
  unfold rStep Std.kR
  cases inv
  · rw [if_neg (by decide)]
    refine (lGalois_does hz hg hcur hx v.mul).bind fun l w1 g1 s1 q1 => ?_
    have hx1 := hx.mono s1
    refine (hx1.bits g1 (hi := 127) (lo := 8) (m := 120) rfl (by omega) (by omega)).bind fun r w2 g2 s2 q2 => ?_
    have q1' := q1.mono s2
    exact g2.cat q1'.val q2.val q1'.here (by omega)
  · rw [if_pos rfl]
    refine (hx.bits hg (hi := 119) (lo := 0) (m := 120) rfl (by omega) (by omega)).bind fun a w1 g1 s1 q1 => ?_
    have hx1 := hx.mono s1
    refine (hx1.bits g1 (hi := 127) (lo := 120) (m := 8) rfl (by omega) (by omega)).bind fun b w2 g2 s2 q2 => ?_
    have q1' := q1.mono s2
    refine (g2.cat q1'.val q2.val q1'.here (by omega)).bind fun c w3 g3 s3 q3 => ?_
    have q3' : Str Z w3 c (fun ρ => ((x ρ).extractLsb' 0 120 ++ (x ρ).extractLsb' 120 8 : BitVec 128)) := q3
    refine (lGalois_does hz g3 (by rw [s3.cur, s2.cur, s1.cur]; exact hcur) q3'.low v.mul).bind fun l w4 g4 s4 q4 => ?_
    have q1'' := (q1'.mono s3).mono s4
    exact g4.cat q1''.val q4.val q1''.here (by omega)

theorem lLayer_does (hz : Names Z) (hg : Good F Z N w) (hcur : w.cur = 0) {val : Nat} {x : (Nat → Pat) → BitVec 128} (hx : Low Z w val x)
    (v : Variant) (inv : Bool) : Does F Z N (lLayer F v val inv) w (fun n w' => Str Z w' n (fun ρ => Std.kL v.mul.opt (x ρ) inv)) := by
  unfold lLayer Std.kL
  have e16 : List.range 16 = 0 :: List.range' 1 15 := by decide
  rw [e16]
  simp only [foldB, List.foldl_cons]
  refine (rStep_does hz hg hcur hx v inv).bind fun s w1 g1 s1 q1 => ?_
  exact foldB_does (R := fun (s : Nat) (t : (Nat → Pat) → BitVec 128) w => Str Z w s t) (g := fun _ y _ => Std.kR v.mul.opt y inv) (List.range' 1 15) s _ w1 g1 q1
    fun _ _ s t w2 g2 s2 r2 => rStep_does hz g2 (by rw [s2.cur, s1.cur]; exact hcur) r2.low v inv

theorem xsl_does (hz : Names Z) (hg : Good F Z N w) (hcur : w.cur = 0) {key val : Nat} {k x : (Nat → Pat) → BitVec 128} (hk : Str Z w key k)
    (hx : Str Z w val x) (v : Variant) :
    Does F Z N (xsl F v key val) w (fun n w' => Str Z w' n (fun ρ => Std.xsl v.mul.opt (k ρ) (x ρ))) := by
  unfold xsl
  refine (hg.xor hk.val hx.val (.inr (hx.notConst hg))).bind fun a w1 g1 s1 q1 => ?_
  refine (sLayer_does g1 q1 v.twice false).bind fun b w2 g2 s2 q2 => ?_
  exact lLayer_does hz g2 (by rw [s2.cur, s1.cur]; exact hcur) q2.1 v false

theorem lsx_does (hz : Names Z) (hg : Good F Z N w) (hcur : w.cur = 0) {key val : Nat} {k x : (Nat → Pat) → BitVec 128} (hk : Str Z w key k)
    (hx : Str Z w val x) {v : Variant} (hv : v.twice = false) :
    Does F Z N (lsx F v key val) w (fun n w' => Str Z w' n (fun ρ => Std.lsx v.mul.opt (k ρ) (x ρ))) := by
  unfold lsx
  refine (lLayer_does hz hg hcur hx.low v true).bind fun a w1 g1 s1 q1 => ?_
  refine (sLayer_does g1 q1 v.twice true).bind fun b w2 g2 s2 q2 => ?_
  have q2' := q2.2 hv
  exact g2.xor ((hk.mono s1).mono s2).val q2'.val (.inr (q2'.notConst g2))

/-! ### Keys -/

theorem getConsts_does (hg : Good F Z N w) (hcur : w.cur = 0) :
    Does F Z N (getConsts F) w (fun ns w' => ∀ i, i < 32 → Str Z w' (ns.getD i 0) (fun _ => Std.kConst i)) := by
  unfold getConsts
  refine (forEach_does (R := fun (c : Nat × Nat) n w' => Str Z w' n (fun _ => (BitVec.ofNat 64 c.1 ++ BitVec.ofNat 64 c.2 : BitVec 128)))
    (fun _ _ _ _ h st => h.mono st) Std.roundConsts w hg fun c _ w1 g1 s1 => ?_).weaken fun ns w1 _ _ q i hi => ?_
  · refine (cst_does g1 (by omega) (by omega) c.1).bind fun a w2 g2 s2 q2 => ?_
    refine (cst_does g2 (by omega) (by omega) c.2).bind fun b w3 g3 s3 q3 => ?_
    have q2' := q2.mono s3
    exact g3.cat q2'.val q3.val (by rw [q2'.kern, s3.cur, s2.cur, s1.cur, hcur]) (by omega)
  · have hlt : i < Std.roundConsts.length := by
      have : Std.roundConsts.length = 32 := by decide +kernel
      omega
    have := forall₂_getD q hlt
    unfold Std.kConst
    rwa [show Std.roundConsts.getD i (0, 0) = Std.roundConsts[i] by simp [List.getD, List.getElem?_eq_getElem hlt]]

theorem fStep_does (hz : Names Z) (hg : Good F Z N w) (hcur : w.cur = 0) {c : Nat} {k : BitVec 128} (hk : Str Z w c (fun _ => k))
    {a : Nat × Nat} {t : (Nat → Pat) → BitVec 128 × BitVec 128} (h1 : Str Z w a.1 (fun ρ => (t ρ).1)) (h2 : Str Z w a.2 (fun ρ => (t ρ).2)) (v : Variant) :
    Does F Z N (fStep F v c a) w (fun s w' => Str Z w' s.1 (fun ρ => (Std.kF v.mul.opt k (t ρ)).1) ∧ Str Z w' s.2 (fun ρ => (Std.kF v.mul.opt k (t ρ)).2)) := by
  unfold fStep
  refine (xsl_does hz hg hcur hk h1 v).bind fun x w1 g1 s1 q1 => ?_
  refine (g1.xor q1.val (h2.mono s1).val (.inl (q1.notConst g1))).bind fun y w2 g2 s2 q2 => ?_
  exact Does.pure g2 ⟨q2, (h1.mono s1).mono s2⟩

/-- The keys made so far. -/
def KeysR (Z : String → Prop) (v : Variant) (k0 k1 : (Nat → Pat) → BitVec 128) (keys : List Nat) (m : Nat) (w : World) : Prop :=
  keys.length = 2 * m + 2 ∧ ∀ i, i ≤ m → Str Z w (keys.getD (2 * i) 0) (fun ρ => (Std.genPair v.mul.opt (k0 ρ) (k1 ρ) i).1) ∧
    Str Z w (keys.getD (2 * i + 1) 0) (fun ρ => (Std.genPair v.mul.opt (k0 ρ) (k1 ρ) i).2)

theorem KeysR.mono {v : Variant} {k0 k1 : (Nat → Pat) → BitVec 128} {keys : List Nat} {m : Nat} {w w' : World} {ps : List (String × Nat)}
    (h : KeysR Z v k0 k1 keys m w) (st : Step ps w w') : KeysR Z v k0 k1 keys m w' :=
  ⟨h.1, fun i hi => ⟨(h.2 i hi).1.mono st, (h.2 i hi).2.mono st⟩⟩

theorem keyIter_does (hz : Names Z) (hg : Good F Z N w) (hcur : w.cur = 0) {consts : List Nat}
    (hc : ∀ i, i < 32 → Str Z w (consts.getD i 0) (fun _ => Std.kConst i)) {v : Variant} {k0 k1 : (Nat → Pat) → BitVec 128} {keys : List Nat} {m : Nat}
    (hm : m < 4) (hk : KeysR Z v k0 k1 keys m w) :
    Does F Z N (do
      let curr ← foldB (fun curr j => fStep F v (consts.getD (8 * m + j) 0) curr) (List.range 8) (keys.getD (2 * m) 0, keys.getD (2 * m + 1) 0)
      pure (keys ++ [curr.1, curr.2])) w (fun keys' w' => KeysR Z v k0 k1 keys' (m + 1) w') := by
  refine (foldB_does (R := fun (s : Nat × Nat) (t : (Nat → Pat) → BitVec 128 × BitVec 128) w => Str Z w s.1 (fun ρ => (t ρ).1) ∧ Str Z w s.2 (fun ρ => (t ρ).2))
    (g := fun _ t j => Std.kF v.mul.opt (Std.kConst (8 * m + j)) t) (List.range 8) (keys.getD (2 * m) 0, keys.getD (2 * m + 1) 0)
    (fun ρ => Std.genPair v.mul.opt (k0 ρ) (k1 ρ) m) w hg (hk.2 m (Nat.le_refl _))
    fun j hj s t w1 g1 s1 r1 => fStep_does hz g1 (by rw [s1.cur]; exact hcur)
      ((hc (8 * m + j) (by simp at hj; omega)).mono s1) r1.1 r1.2 v).bind fun curr w1 g1 s1 q1 => ?_
  refine Does.pure g1 ⟨by rw [List.length_append, hk.1]; simp; omega, fun i hi => ?_⟩
  rcases Nat.lt_or_ge i (m + 1) with h | h
  · have e1 : (keys ++ [curr.1, curr.2]).getD (2 * i) 0 = keys.getD (2 * i) 0 := List.getD_append _ _ _ _ (by rw [hk.1]; omega)
    have e2 : (keys ++ [curr.1, curr.2]).getD (2 * i + 1) 0 = keys.getD (2 * i + 1) 0 := List.getD_append _ _ _ _ (by rw [hk.1]; omega)
    rw [e1, e2]
    obtain ⟨a, b⟩ := hk.2 i (by omega)
    exact ⟨a.mono s1, b.mono s1⟩
  · have hi' : i = m + 1 := by omega
    subst hi'
    have e1 : (keys ++ [curr.1, curr.2]).getD (2 * (m + 1)) 0 = curr.1 := by
      rw [List.getD_append_right _ _ _ _ (by rw [hk.1]; omega), hk.1, show 2 * (m + 1) - (2 * m + 2) = 0 by omega]
      rfl
    have e2 : (keys ++ [curr.1, curr.2]).getD (2 * (m + 1) + 1) 0 = curr.2 := by
      rw [List.getD_append_right _ _ _ _ (by rw [hk.1]; omega), hk.1, show 2 * (m + 1) + 1 - (2 * m + 2) = 1 by omega]
      rfl
    rw [e1, e2]
    exact q1

/-- The loop over `i` of `genKeys`. -/
theorem keyLoop_does (hz : Names Z) {consts : List Nat} {v : Variant} {k0 k1 : (Nat → Pat) → BitVec 128} :
    ∀ (n m : Nat) (keys : List Nat) (w : World), Good F Z N w → w.cur = 0 →
      (∀ i, i < 32 → Str Z w (consts.getD i 0) (fun _ => Std.kConst i)) → m + n ≤ 4 → KeysR Z v k0 k1 keys m w →
      Does F Z N (foldB (fun keys i => do
        let curr ← foldB (fun curr j => fStep F v (consts.getD (8 * i + j) 0) curr) (List.range 8) (keys.getD (2 * i) 0, keys.getD (2 * i + 1) 0)
        pure (keys ++ [curr.1, curr.2])) (List.range' m n) keys) w (fun keys' w' => KeysR Z v k0 k1 keys' (m + n) w')
  | 0, m, keys, w, hg, _, _, _, hk => Does.pure hg hk
  | n + 1, m, keys, w, hg, hcur, hc, hn, hk => by
    rw [List.range'_succ]
    unfold foldB
    refine (keyIter_does hz hg hcur hc (by omega) hk).bind fun keys' w1 g1 s1 q1 => ?_
    have := keyLoop_does hz n (m + 1) keys' w1 g1 (by rw [s1.cur]; exact hcur) (fun i hi => (hc i hi).mono s1) (by omega) q1
    rwa [show m + 1 + n = m + (n + 1) by omega] at this

theorem genKeys_does (hz : Names Z) (hg : Good F Z N w) (hcur : w.cur = 0) {a b : Nat} {k : (Nat → Pat) → BitVec 256}
    (ha : Str Z w a (fun ρ => (k ρ).extractLsb 255 128)) (hb : Str Z w b (fun ρ => (k ρ).extractLsb 127 0)) (v : Variant) :
    Does F Z N (genKeys F v a b) w (fun ks w' => ∀ i, i < 10 → Str Z w' (ks.getD i 0) (fun ρ => Std.gKey v.mul.opt (k ρ) i)) := by
  unfold genKeys
  refine (getConsts_does hg hcur).bind fun consts w1 g1 s1 q1 => ?_
  have h0 : KeysR Z v (fun ρ => (k ρ).extractLsb 255 128) (fun ρ => (k ρ).extractLsb 127 0) [a, b] 0 w1 := by
    refine ⟨rfl, fun i hi => ?_⟩
    obtain rfl : i = 0 := by omega
    exact ⟨ha.mono s1, hb.mono s1⟩
  rw [List.range_eq_range']
  refine (keyLoop_does hz 4 0 [a, b] w1 g1 (by rw [s1.cur]; exact hcur) q1 (by omega) h0).weaken fun ks w2 _ _ q i hi => ?_
  obtain ⟨p1, p2⟩ := q.2 (i / 2) (by omega)
  unfold Std.gKey
  dsimp only
  by_cases h : i % 2 = 0
  · simp only [if_pos h]
    rwa [show 2 * (i / 2) = i by omega] at p1
  · simp only [if_neg h]
    rwa [show 2 * (i / 2) + 1 = i by omega] at p2

/-! ### Kernels -/

theorem encBody_does (hz : Names Z) (hg : Good F Z N w) (hcur : w.cur = 0) {block key : Nat} {b : (Nat → Pat) → BitVec 128}
    {k : (Nat → Pat) → BitVec 256} (hb : Str Z w block b) (hk : Str Z w key k) (v : Variant) :
    Does F Z N (kuznechikEncBody F v block key) w (fun n w' => Str Z w' n (fun ρ => Std.kuznechikEncode v.mul.opt (k ρ) (b ρ))) := by
  unfold kuznechikEncBody
  refine (hg.bits hk.val hk.here (hi := 255) (lo := 128) (m := 128) rfl (by omega) (by omega)).bind fun k0 w1 g1 s1 q1 => ?_
  have hk1 := hk.mono s1
  refine (g1.bits hk1.val hk1.here (hi := 127) (lo := 0) (m := 128) rfl (by omega) (by omega)).bind fun k1 w2 g2 s2 q2 => ?_
  refine (genKeys_does hz g2 (by rw [s2.cur, s1.cur]; exact hcur) (k := k) (q1.mono s2) q2 v).bind fun ks w3 g3 s3 q3 => ?_
  have hcur3 : w3.cur = 0 := by rw [s3.cur, s2.cur, s1.cur]; exact hcur
  refine (foldB_does (R := fun (s : Nat) (t : (Nat → Pat) → BitVec 128) w => Str Z w s t)
    (g := fun ρ y i => Std.xsl v.mul.opt (Std.gKey v.mul.opt (k ρ) i) y) (List.range 9) block b w3 g3 (((hb.mono s1).mono s2).mono s3)
    fun i hi s t w4 g4 s4 r4 => xsl_does hz g4 (by rw [s4.cur]; exact hcur3) ((q3 i (by simp at hi; omega)).mono s4) r4 v).bind
    fun y w4 g4 s4 q4 => ?_
  unfold Std.kuznechikEncode
  exact g4.xor q4.val ((q3 9 (by omega)).mono s4).val (.inl (q4.notConst g4))

theorem decBody_does (hz : Names Z) (hg : Good F Z N w) (hcur : w.cur = 0) {block key : Nat} {b : (Nat → Pat) → BitVec 128}
    {k : (Nat → Pat) → BitVec 256} (hb : Str Z w block b) (hk : Str Z w key k) {v : Variant} (hv : v.twice = false) :
    Does F Z N (kuznechikDecBody F v block key) w (fun n w' => Str Z w' n (fun ρ => Std.kuznechikDecode v.mul.opt (k ρ) (b ρ))) := by
  unfold kuznechikDecBody
  refine (hg.bits hk.val hk.here (hi := 255) (lo := 128) (m := 128) rfl (by omega) (by omega)).bind fun k0 w1 g1 s1 q1 => ?_
  have hk1 := hk.mono s1
  refine (g1.bits hk1.val hk1.here (hi := 127) (lo := 0) (m := 128) rfl (by omega) (by omega)).bind fun k1 w2 g2 s2 q2 => ?_
  refine (genKeys_does hz g2 (by rw [s2.cur, s1.cur]; exact hcur) (k := k) (q1.mono s2) q2 v).bind fun ks w3 g3 s3 q3 => ?_
  have hcur3 : w3.cur = 0 := by rw [s3.cur, s2.cur, s1.cur]; exact hcur
  have hb3 := ((hb.mono s1).mono s2).mono s3
  refine (g3.xor hb3.val (q3 9 (by omega)).val (.inl (hb3.notConst g3))).bind fun y w4 g4 s4 q4 => ?_
  unfold Std.kuznechikDecode
  exact foldB_does (R := fun (s : Nat) (t : (Nat → Pat) → BitVec 128) w => Str Z w s t)
    (g := fun ρ y i => Std.lsx v.mul.opt (Std.gKey v.mul.opt (k ρ) i) y) (List.range 9).reverse y _ w4 g4 q4
    fun i hi s t w5 g5 s5 r5 => lsx_does hz g5 (by rw [s5.cur, s4.cur]; exact hcur3) (((q3 i (by simp at hi; omega)).mono s4).mono s5) r5 hv

/-- `KuznechikEncoder` computes the cipher; it must be the top kernel. -/
theorem kuznechikEncoder_contract (hz : Names Z) (v : Variant) :
    Contract F Z (fun w => w.cur = 0) (kuznechikEncoder F v) [("block", 128), ("key", 256)] "encoded" 128
      (fun l => Std.kuznechikEncode v.mul.opt (arg 256 l 1) (arg 128 l 0)) :=
  two_in_contract (f := fun b k => Std.kuznechikEncode v.mul.opt k b)
    (fun x y r w => Str Z w r (fun ρ => Std.kuznechikEncode v.mul.opt (BitVec.ofNat 256 (ρ y).2) (BitVec.ofNat 128 (ρ x).2)))
    (by decide) (by decide) (by decide) (by decide) (by decide) (by decide) (by decide) (fun _ _ _ st h => by rw [st.cur]; exact h)
    (fun _ _ _ _ _ _ st h => h.mono st)
    (fun N w x y g hc p1 p2 => encBody_does hz g hc (p1.str hz.block) (p2.str hz.key) v)
    (fun N w x y r g _ q => Does.pure g q)

/-- `KuznechikDecoder` computes the inverse cipher; it must be the top kernel. -/
theorem kuznechikDecoder_contract (hz : Names Z) {v : Variant} (hv : v.twice = false) :
    Contract F Z (fun w => w.cur = 0) (kuznechikDecoder F v) [("encoded", 128), ("key", 256)] "block" 128
      (fun l => Std.kuznechikDecode v.mul.opt (arg 256 l 1) (arg 128 l 0)) :=
  two_in_contract (f := fun b k => Std.kuznechikDecode v.mul.opt k b)
    (fun x y r w => Str Z w r (fun ρ => Std.kuznechikDecode v.mul.opt (BitVec.ofNat 256 (ρ y).2) (BitVec.ofNat 128 (ρ x).2)))
    (by decide) (by decide) (by decide) (by decide) (by decide) (by decide) (by decide) (fun _ _ _ st h => by rw [st.cur]; exact h)
    (fun _ _ _ _ _ _ st h => h.mono st)
    (fun N w x y g hc p1 p2 => decBody_does hz g hc (p1.str hz.encoded) (p2.str hz.key) hv)
    (fun N w x y r g _ q => Does.pure g q)

end

end Verif.Kernels
