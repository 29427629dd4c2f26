import Verif.Kernels.Kuznechik
import Verif.Kernels.Top
import Verif.Flat.Model
import Mathlib.Data.BitVec
import Mathlib.Tactic.Ring
/-
Kernels made of instances of kernels.
-/
namespace Verif.Kernels
open Verif.Dfcxx Verif.Flow

/-- A kernel with one stream input and one stream output, by its constructor and the names of its ports. -/
structure Stage where
  code : Build Unit
  inp : String
  out : String

/-- A kernel that passes its input through instances of other kernels, one after the other:

    DFVariable s = io.input(a, dfUInt(k));
    for each stage:
      DFVariable t = io.newStream(dfUInt(k));
      instance<Stage>({{s, inp}, {t, out}});
      s = t;
    DFVariable o = io.output(b, dfUInt(k));
    o.connect(s);

(`Kernel::instance`: kernel.h:78-93.) -/
def chain (F : FloatOps) (k : Nat) (a b : String) (stages : List Stage) : Build Unit := do
  let x ← call1 F (.input false a (uint k))
  let s ← foldB (fun s st => do
    let t ← call1 F (.newVar false (uint k))
    let hs ← inst F st.code [(s, st.inp), (t, st.out)]
    pure (hs.getD 1 0)) stages x
  let o ← call1 F (.output false b (uint k))
  let _ ← call F (.connect o s)
  pure ()

/-- The constructor of `Polynomial2Inst` (examples/polynomial2_inst/polynomial2_inst.h:44-52). -/
def polynomial2Inst (F : FloatOps) : Build Unit := do
  let x ← call1 F (.input false "x" (uint 32))
  let intermediate ← call1 F (.newVar false (uint 32))
  let hs ← inst F (Flat.polynomial2 F) [(x, "x"), (intermediate, "out")]
  let out ← call1 F (.output false "out" (uint 32))
  let _ ← call F (.connect out (hs.getD 1 0))
  pure ()

section
variable {F : FloatOps} {Z : String → Prop} {N : List Nat} {w : World}

/-- A kernel: one input, some code, an output. -/
theorem one_in_contract {a out : String} {ka k : Nat} {body : Nat → Build Nat} {f : BitVec ka → BitVec k}
    (hna : a ≠ "") (hno : out ≠ "") (hoa : out ≠ a) (hka : 0 < ka ∧ ka < 65536) (hk : 0 < k ∧ k < 65536)
    (hbody : ∀ N w x, Good F Z N w → Port w x a (fun ρ => BitVec.ofNat ka (ρ x).2) →
      Does F Z N (body x) w (fun s w' => Str Z w' s (fun ρ => f (BitVec.ofNat ka (ρ x).2)))) :
    Contract F Z (fun _ => True) (do
      let x ← call1 F (.input false a (uint ka))
      let s ← body x
      let o ← call1 F (.output false out (uint k))
      let _ ← call F (.connect o s)
      pure ()) [(a, ka)] out k (fun l => f (arg ka l 0)) := by
  refine ⟨by simp [hoa], fun N w hg hh _ => ?_⟩
  obtain ⟨x, w1, e1, g1, s1, p1⟩ := input_does hg hka.1 hka.2 hna (by rw [hh]; simp)
  have hh1 : headNames w1 = [(a, x)] := by rw [headNames_step hg.inv s1, hh]; rfl
  obtain ⟨s, w2, e2, g2, s2, q2⟩ := hbody N w1 x g1 p1
  have hh2 : headNames w2 = [(a, x)] := by rw [headNames_step g1.inv s2, hh1]; rfl
  obtain ⟨t1, t2, t3⟩ := uint_ok hk.1 hk.2
  obtain ⟨o, w3, e3, no, g3, s3, l3, o3, k3, ty3⟩ := g2.output t1 t2 hno (by rw [hh2]; simpa using fun e => hoa e.symm)
  obtain ⟨w4, e4, g4, s4, i4, l4, fe4⟩ := g3.connect no o3 k3 (by rw [ty3]; exact t3) (q2.mono s3).val
  have p1' := p1.mono s2 |>.mono s3 |>.mono s4
  refine ⟨w4, _, [x], o, s, ?_, g4, ((s1.trans s2).trans s3).trans s4, ?_, ?_, ?_, ?_, i4, ?_⟩
  · rw [build_bind e1, build_bind e2, build_bind e3, build_bind e4]
    rfl
  · have n1 : (a == out) = false := by simpa using fun e => hoa e.symm
    exact .cons ⟨by simp [List.lookup, n1], p1'.isIn, p1'.loc.val.width, p1'.kind⟩ .nil
  · intro q hq
    simp only [List.nil_append, List.cons_append, List.append_nil, List.mem_cons, List.not_mem_nil, or_false] at hq
    rcases hq with rfl | rfl <;> simp
  · simp [List.lookup]
  · rw [fe4.1, o3]
  · exact (q2.mono s3).mono s4

/-- The kernel of a stage computes `g`. -/
def Stage.Computes (F : FloatOps) (Z : String → Prop) (k : Nat) (st : Stage) (g : BitVec k → BitVec k) : Prop :=
  Contract F Z (fun _ => True) st.code [(st.inp, k)] st.out k (fun l => g (arg k l 0))

theorem stage_does {k : Nat} {st : Stage} {g : BitVec k → BitVec k} (h : st.Computes F Z k g) (hg : Good F Z N w) {s : Nat}
    {x : (Nat → Pat) → BitVec k} (hx : Str Z w s x) :
    Does F Z N (do
      let t ← call1 F (.newVar false (uint k))
      let hs ← inst F st.code [(s, st.inp), (t, st.out)]
      pure (hs.getD 1 0)) w (fun n w' => Str Z w' n (fun ρ => g (x ρ))) := by
  obtain ⟨v, w1, e1, v1, g1, s1, l1, n1, k1⟩ := hg.newVar (uint k)
  have hx1 := hx.mono s1
  obtain ⟨hs, w2, e2, g2, s2, q2⟩ := inst_does h g1 v1 n1 k1 (args := [s]) (.cons (hx1.arg st.inp) .nil) trivial
    (bs := [(s, st.inp), (v, st.out)]) rfl (j := 1) rfl
  refine ⟨_, w2, ?_, g2, s1.trans s2, q2.congr fun ρ hs => ?_⟩
  · rw [build_bind e1, build_bind e2]; rfl
  · show g (BitVec.ofNat k (ρ s).2) = _
    rw [arg_val (hx1.mono s2).val hs]

theorem stages_does {k : Nat} : ∀ {stages : List Stage} {gs : List (BitVec k → BitVec k)} (_ : List.Forall₂ (fun st g => st.Computes F Z k g) stages gs)
    {w : World} (_ : Good F Z N w) {s : Nat} {x : (Nat → Pat) → BitVec k} (_ : Str Z w s x),
    Does F Z N (foldB (fun s st => do
      let t ← call1 F (.newVar false (uint k))
      let hs ← inst F st.code [(s, st.inp), (t, st.out)]
      pure (hs.getD 1 0)) stages s) w (fun n w' => Str Z w' n (fun ρ => gs.foldl (fun v g => g v) (x ρ)))
  | _, _, .nil, w, hg, s, x, hx => Does.pure hg hx
  | _, _, .cons h t, w, hg, s, x, hx => by
    unfold foldB
    refine (stage_does h hg hx).bind fun s1 w1 g1 st1 q1 => ?_
    exact stages_does t g1 q1

/-- A chain of kernels computes the composition of what they compute; so it can be a stage itself. -/
theorem chain_contract {k : Nat} {a b : String} (hk : 0 < k ∧ k < 65536) (ha : a ≠ "") (hb : b ≠ "") (hab : b ≠ a) (hz : ¬ Z a) {stages : List Stage}
    {gs : List (BitVec k → BitVec k)} (h : List.Forall₂ (fun st g => st.Computes F Z k g) stages gs) :
    Stage.Computes F Z k ⟨chain F k a b stages, a, b⟩ (fun x => gs.foldl (fun v g => g v) x) := by
  unfold Stage.Computes chain
  exact one_in_contract (f := fun x : BitVec k => gs.foldl (fun v g => g v) x) ha hb hab hk hk fun _ _ _ g p => stages_does h g (p.str hz)

/-- `Polynomial2` as a stage. -/
theorem polynomial2_computes (hz : ¬ Z "x") : Stage.Computes F Z 32 ⟨Flat.polynomial2 F, "x", "out"⟩ (fun x => x ^ 2 + 2 * x) := by
  have : Contract F Z (fun _ => True) (do
      let x ← call1 F (.input false "x" (uint 32))
      let s ← (do
        let squared ← call1 F (.bin .MUL x x)
        let squaredPlusX ← call1 F (.bin .ADD squared x)
        call1 F (.bin .ADD squaredPlusX x))
      let o ← call1 F (.output false "out" (uint 32))
      let _ ← call F (.connect o s)
      pure ()) [("x", 32)] "out" 32 (fun l => (arg 32 l 0) ^ 2 + 2 * (arg 32 l 0)) := by
    refine one_in_contract (f := fun x : BitVec 32 => x ^ 2 + 2 * x) (by decide) (by decide) (by decide) (by decide) (by decide) fun N w x g p => ?_
    have hx := p.str hz
    refine (g.mul hx hx.val).bind fun n1 w1 g1 s1 q1 => ?_
    refine (g1.add q1 (hx.mono s1).val).bind fun n2 w2 g2 s2 q2 => ?_
    refine (g2.add q2 ((hx.mono s1).mono s2).val).weaken fun n3 w3 _ _ q3 => q3.congr fun ρ _ => ?_
    have : ∀ y : BitVec 32, y * y + y + y = y ^ 2 + 2 * y := fun y => by ring
    exact this _
  simp only [bind_assoc] at this
  exact this

/-- **C74.** A kernel that passes its input through instances of kernels that compute functions `gs`: the hardware generated for it shows, one
element per cycle, the composition of the functions, in the order of the instances; for every number of instances, every width, and instances
that contain instances. -/
theorem chain_hardware {k : Nat} {a b : String} (hk : 0 < k ∧ k < 65536) (ha : a ≠ "") (hb : b ≠ "") (hab : b ≠ a) (hz : ¬ Z a) {stages : List Stage}
    {gs : List (BitVec k → BitVec k)} (h : List.Forall₂ (fun st g => st.Computes F Z k g) stages gs) :
    Realizes (chain F k a b stages) [(a, k)] b k (fun v y => y = gs.foldl (fun x g => g x) (BitVec.ofNat k (v a))) :=
  Contract.realizes (chain_contract hk ha hb hab hz h) trivial _ fun _ => rfl

theorem polynomial2Inst_contract : Contract F (fun _ => False) (fun _ => True) (polynomial2Inst F) [("x", 32)] "out" 32
    (fun l => arg 32 l 0 ^ 2 + 2 * arg 32 l 0) := by
  have h := chain_contract (F := F) (Z := fun _ => False) (k := 32) (a := "x") (b := "out") (by decide) (by decide) (by decide) (by decide) (by simp)
    (stages := [⟨Flat.polynomial2 F, "x", "out"⟩]) (.cons (polynomial2_computes (by simp)) .nil)
  have e : polynomial2Inst F = chain F 32 "x" "out" [⟨Flat.polynomial2 F, "x", "out"⟩] := by
    unfold polynomial2Inst chain
    simp only [foldB, bind_assoc, pure_bind]
  rw [e]
  exact h

/-- **C74.** The hardware generated for `Polynomial2Inst`, which instantiates `Polynomial2`, computes x² + 2x modulo 2^32. -/
theorem polynomial2Inst_hardware (F : FloatOps) :
    Realizes (polynomial2Inst F) [("x", 32)] "out" 32 (fun v y => y.toNat = (v "x" ^ 2 + 2 * v "x") % 2 ^ 32) := by
  refine Contract.realizes (polynomial2Inst_contract (F := F)) trivial _ fun v => ?_
  show (BitVec.ofNat 32 (v "x") ^ 2 + 2 * BitVec.ofNat 32 (v "x")).toNat = _
  rw [show BitVec.ofNat 32 (v "x") ^ 2 + 2 * BitVec.ofNat 32 (v "x") = BitVec.ofNat 32 (v "x" ^ 2 + 2 * v "x") by
    rw [BitVec.ofNat_add, BitVec.ofNat_mul, sq, sq, BitVec.ofNat_mul]; rfl, BitVec.toNat_ofNat]

/-- The table kernels of the cipher are stages, too. -/
theorem kuznGalois_computes (hz : ¬ Z "in") {c : Nat} (hc : (Std.kuznechikGalois8Mul c 0).isSome) :
    Stage.Computes F Z 8 ⟨kuznGalois F c, "in", "out"⟩ (fun x => (Std.kuznechikGalois8Mul c x).getD 0) :=
  kuznGalois_contract hz hc

theorem polynomial2_iter (n : Nat) (x : BitVec 32) :
    (List.replicate n (fun x : BitVec 32 => x ^ 2 + 2 * x)).foldl (fun v g => g v) x = (x + 1) ^ 2 ^ n - 1 := by
  induction n generalizing x with
  | zero => simp
  | succ n ih =>
    rw [List.replicate_succ, List.foldl_cons, ih, pow_succ, mul_comm, pow_mul]
    congr 2
    ring

/-- **C74.** A chain of `n` instances of `Polynomial2` computes (x + 1)^(2^n) - 1. -/
theorem polynomial2_chain_hardware (F : FloatOps) (n : Nat) :
    Realizes (chain F 32 "x" "out" (List.replicate n ⟨Flat.polynomial2 F, "x", "out"⟩)) [("x", 32)] "out" 32
      (fun v y => y = (BitVec.ofNat 32 (v "x") + 1) ^ 2 ^ n - 1) := by
  have hs : ∀ n, List.Forall₂ (fun st g => Stage.Computes F (fun _ => False) 32 st g) (List.replicate n ⟨Flat.polynomial2 F, "x", "out"⟩)
      (List.replicate n fun x : BitVec 32 => x ^ 2 + 2 * x) := by
    intro n
    induction n with
    | zero => exact .nil
    | succ n ih => rw [List.replicate_succ, List.replicate_succ]; exact .cons (polynomial2_computes (by simp)) ih
  have h := chain_hardware (F := F) (Z := fun _ => False) (k := 32) (a := "x") (b := "out") (by decide) (by decide) (by decide) (by decide) (by simp) (hs n)
  simp only [polynomial2_iter] at h
  exact h

end

end Verif.Kernels
