import Verif.Kernels.Inst
import Verif.Flow.Compiled
import Verif.Flow.Bound
/-
From the code of a kernel to the hardware: every design the compiler may produce for a kernel with a contract computes the function of the
contract, one element per cycle.
-/
namespace Verif.Kernels
open Verif.Dfcxx Verif.Flow

/-- The design `cells` takes values at the ports `ins` (name, width) and shows at port `out`, `k` bits wide, a value related by `P` to the
values at the ports a fixed number of cycles before; in every run, whatever the registers contain at power-up, and there are runs. -/
def Shows (cells : Nat → Cell) (size : Nat) (ins : List (String × Nat)) (out : String) (k : Nat) (P : (String → Nat) → BitVec k → Prop) : Prop :=
  ∃ (wire delay : Nat) (ty : Hw.FTy) (src : Nat), wire < size ∧ cells wire = .output out ty (some src) ∧
    ∀ (port : String → Nat → Nat) (oob : Hw.FVal → List Hw.FVal → Hw.FVal) (reg : Nat → Nat → Nat),
      (∀ i ∈ ins, ∀ t, port i.1 t < 2 ^ i.2) → OobOK oob →
      (∃ σ, CircuitRun cells size port oob reg σ) ∧
      ∀ σ, CircuitRun cells size port oob reg σ → ∀ t, ∃ y : BitVec k, σ wire (delay + t) = ⟨false, k, y.toNat⟩ ∧ P (fun name => port name t) y

/-- The constructor `p` of a kernel: it succeeds, what it builds compiles, and every design the compiler may produce for it shows `P`. -/
def Realizes (p : Build Unit) (ins : List (String × Nat)) (out : String) (k : Nat) (P : (String → Nat) → BitVec k → Prop) : Prop :=
  ∃ w g, p World.init = .ok ((), w) ∧ Finished w g ∧
    ∀ file : Option Config.JsonDoc,
      (∃ cells size, Compiled w g file cells size) ∧
      ∀ cells size, Compiled w g file cells size → Shows cells size ins out k P

section
variable {F : FloatOps} {Z : String → Prop}

theorem good_init : Good F Z [] World.init := by
  refine ⟨.nil _, ?_, by simp, ?_⟩
  · rintro n ⟨g, hg, hn⟩
    simp only [World.init, List.mem_singleton] at hg
    subst hg
    simp at hn
  · intro g hg n hn
    simp only [World.init, List.mem_singleton] at hg
    subst hg
    simp at hn

/-- What the code of a kernel leaves behind. -/
theorem Contract.built {C : World → Prop} {p : Build Unit} {ins : List (String × Nat)} {out : String} {k : Nat} {f : List Pat → BitVec k}
    (hc : Contract F Z C p ins out k f) (hC : C World.init) :
    ∃ w g o, p World.init = .ok ((), w) ∧ Hist F Proper World.init w ∧ Finished w g ∧ (∀ L, Handled w.view L g.nodes) ∧
      (∀ n ∈ g.nodes, (w.view n).op ≠ .OFFSET) ∧ o ∈ g.nodes ∧ (w.view o).op = .OUT ∧ (w.view o).name = out ∧ unsignedTy (w.view o).ty ∧
      Flow.width (w.view o).ty = k ∧
      ∀ port : String → Nat → Nat, (∀ i ∈ ins, ∀ t, port i.1 t < 2 ^ i.2) → PortsOK w.view g.nodes port ∧
        ∀ t : Nat, StreamVal w.view port o t (f (ins.map fun i => (i.2, port i.1 t))).toNat := by
  obtain ⟨w, ps, ns, o, s, h1, h2, h3, h4, h5, h6, h7, h8, h9⟩ := hc.run [] World.init good_init rfl hC
  have hsh : shape w = [(0, ps)] := by
    rw [h3.shape]
    show [(0, ps ++ [])] = _
    rw [List.append_nil]
  obtain ⟨g, hst, hid, hnm⟩ : ∃ g, w.stack = [g] ∧ g.id = 0 ∧ g.names = ps := by
    unfold shape at hsh
    match hs : w.stack with
    | [] => rw [hs] at hsh; simp at hsh
    | [g] =>
      rw [hs] at hsh
      simp only [List.map_cons, List.map_nil, List.cons.injEq, Prod.mk.injEq, and_true] at hsh
      exact ⟨g, rfl, hsh.1, hsh.2⟩
    | _ :: _ :: _ => rw [hs] at hsh; simp at hsh
  have hgm : g ∈ w.stack := by rw [hst]; simp
  have hlive : ∀ n, w.Live n ↔ n ∈ g.nodes := by
    intro n; unfold World.Live; rw [hst]; simp
  have hok : ∀ n ∈ g.nodes, NodeOK Z w.view n := fun n hn => h2.ok n ((hlive n).mpr hn) (by simp)
  have hol : (out, o) ∈ g.names := by
    obtain ⟨l1, l2, e, -⟩ := List.lookup_eq_some_iff.mp h6
    rw [hnm, e]; simp
  obtain ⟨on, -, oname⟩ := h2.inv.st.names g hgm (out, o) hol
  have hfin : Finished w g := by
    refine ⟨hst, ?_, fun n hn ho => ?_, fun n hn ho => absurd ho (hok n hn).notOffset⟩
    · unfold World.check
      simp only [List.all_eq_true, decide_eq_true_eq]
      exact fun n hn => (hok n hn).notNone
    · have := (hok n hn).out ho
      simpa [World.view] using this
  have hhand : ∀ L, Handled w.view L g.nodes := by
    intro L
    refine ⟨fun n hn => (hok n hn).supp _, fun n hn j hd => ?_, fun n hn => (hok n hn).few, fun n hn s hs => ((hok n hn).srcs s hs).1, ?_⟩
    · exact absurd hd ((hok n hn).noDist j)
    · intro m hm n hn _
      have a : (w.view m).ty.isSigned = false := (hok m hm).uns
      have b : (w.view n).ty.isSigned = false := (hok n hn).uns
      rw [a, b]
  have hsrcs : (w.view o).srcs = [s] := by unfold NodeV.srcs; rw [h8]; rfl
  have how : Flow.width (w.view o).ty = k := by
    have := ((hok o on).supp 0).2
    rw [show (w.view o).op = .OUT from h7] at this
    simp only at this
    rw [← (this s (by rw [hsrcs]; simp)).1]
    exact h9.val.width
  -- the inputs
  have hinp : ∀ n ∈ g.nodes, (w.view n).op = .IN → ∃ i ∈ ins, (w.view n).name = i.1 ∧ ps.lookup i.1 = some n ∧ Flow.width (w.view n).ty = i.2 ∧
      (w.view n).kind = .stream := by
    intro n hn ho
    have hl := h2.ported g hgm n hn (.inl ho)
    rw [hnm] at hl
    obtain ⟨l1, l2, e, -⟩ := List.lookup_eq_some_iff.mp hl
    rcases h5 ((w.node n).name, n) (by rw [e]; simp) with e1 | e1
    · simp only at e1
      rw [e1, h6] at hl
      have e3 : o = n := Option.some.inj hl
      rw [← e3, show (w.view o).op = .OUT from h7] at ho
      cases ho
    · obtain ⟨i, hi, e2⟩ := List.mem_map.mp e1
      obtain ⟨m, -, q1, q2, q3, q4⟩ := forall₂_mem_left h4 i hi
      simp only at e2
      rw [e2, hl] at q1
      cases q1
      exact ⟨i, hi, e2.symm, by rw [e2]; exact hl, q3, q4⟩
  refine ⟨w, g, o, h1, h2.hist, hfin, hhand, fun n hn => (hok n hn).notOffset, on, h7, oname, (hok o on).uns, how, fun port hp => ?_⟩
  have hports : PortsOK w.view g.nodes port := by
    refine ⟨fun n hn ho t => ?_, fun n hn ho hk t => ?_⟩
    · obtain ⟨i, hi, e1, -, e2, -⟩ := hinp n hn ho
      rw [e1, e2]; exact hp i hi t
    · obtain ⟨i, hi, -, -, -, e3⟩ := hinp n hn ho
      exact absurd e3 hk
  refine ⟨hports, fun t => ?_⟩
  obtain ⟨order, -, hperm, hto, hcomp, -⟩ := finished_kernel_is_processable h2.hist hfin sortGraph_enum
  have hmem : ∀ n, n ∈ order ↔ n ∈ g.nodes := fun n => hperm.mem_iff
  -- the valuation at tick t
  let I : String → Pat := fun name => (((ins.find? fun i => i.1 == name).map Prod.snd).getD 0, port name t)
  have hI : ∀ n ∈ g.nodes, (w.view n).op = .IN → I (w.view n).name = (Flow.width (w.view n).ty, port (w.view n).name t) := by
    intro n hn ho
    obtain ⟨i, hi, e1, -, e2, -⟩ := hinp n hn ho
    show (_, _) = _
    congr 1
    rw [e2]
    have hf : ∃ j, ins.find? (fun i => i.1 == (w.view n).name) = some j := by
      rw [← Option.isSome_iff_exists, List.find?_isSome]
      exact ⟨i, hi, by rw [e1]; simp⟩
    obtain ⟨j, hj⟩ := hf
    have hjn : j.1 = i.1 := by
      have := List.find?_some hj
      simpa [e1] using this
    have hji : j = i := List.inj_on_of_nodup_map (List.nodup_cons.mp hc.nodup).2 (List.mem_of_find?_eq_some hj) hi hjn
    rw [hj, hji]
    rfl
  obtain ⟨ρ, hρ⟩ := exists_solution (patInterp I) hto (fun _ => (0, 0))
  have hplain : ∀ n ∈ order, Plain w.view n := fun n hn =>
    ⟨(hok n ((hmem n).mp hn)).supp, (hok n ((hmem n).mp hn)).uns, (hok n ((hmem n).mp hn)).notOffset⟩
  have hsv := streamVal_of_solution hto hcomp hplain (inp := port) (I := I) (t := t) (fun n hn ho => by
    obtain ⟨i, hi, -, -, -, e3⟩ := hinp n ((hmem n).mp hn) ho
    rw [hI n ((hmem n).mp hn) ho, if_pos e3]) hρ (fun n hn ho c alts hs hval => by
    have hlt := streamVal_lt hto (fun n hn => (hplain n hn).supp 0) (fun n hn ho => absurd ho (hplain n hn).noOff)
      (fun n hn ho t => hports.fits n ((hmem n).mp hn) ho t) hval (srcs_in_order hto hn (by rw [hs]; simp)).1
    exact Nat.lt_of_lt_of_le hlt ((hok n ((hmem n).mp hn)).mux ho c alts hs).1)
  have hsat : Sat w ρ := by
    refine ⟨fun m hl hne hx => ?_, fun m hl ho => ?_⟩
    · have := hρ m ((hmem m).mpr ((hlive m).mp hl))
      unfold NodeEq at this ⊢
      cases hop : (w.view m).op <;> rw [hop] at this <;> first | exact absurd hop hx | exact this
    · have hm := (hlive m).mp hl
      have := hρ m ((hmem m).mpr hm)
      unfold NodeEq at this
      rw [show (w.view m).op = .IN from ho] at this
      have e : ρ m = (Flow.width (w.view m).ty, port (w.view m).name t) := by
        rw [← hI m hm ho]; exact this
      rw [e]
      exact ⟨rfl, hports.fits m hm ho t⟩
  have hval := h9.val.val ρ hsat
  have hout : ρ o = ρ s := by
    have := hρ o ((hmem o).mpr on)
    unfold NodeEq at this
    rw [show (w.view o).op = .OUT from h7] at this
    exact this s hsrcs
  have hns : ns.map ρ = ins.map fun i => (i.2, port i.1 t) := by
    have key : ∀ {l : List (String × Nat)} {m : List Nat}, List.Forall₂ (fun i n => ps.lookup i.1 = some n ∧ (w.node n).op = .IN ∧
        Flow.width (w.node n).ty = i.2 ∧ (w.node n).kind = .stream) l m → m.map ρ = l.map fun i => (i.2, port i.1 t) := by
      intro l m hq
      induction hq with
      | nil => rfl
      | @cons i n l m q _ ih =>
        simp only [List.map_cons, ih, List.cons.injEq, and_true]
        have hin : (i.1, n) ∈ g.names := by
          rw [hnm]
          obtain ⟨l1, l2, e, -⟩ := List.lookup_eq_some_iff.mp q.1
          rw [e]; simp
        obtain ⟨n1, -, n3⟩ := h2.inv.st.names g hgm _ hin
        have := hρ n ((hmem n).mpr n1)
        unfold NodeEq at this
        rw [show (w.view n).op = .IN from q.2.1] at this
        have e : ρ n = (Flow.width (w.view n).ty, port (w.view n).name t) := by
          rw [← hI n n1 q.2.1]; exact this
        rw [e]
        have e1 : Flow.width (w.view n).ty = i.2 := q.2.2.1
        have e2 : (w.view n).name = i.1 := n3
        rw [e1, e2]
    exact key h4
  have := (hsv o ((hmem o).mpr on)).2
  rw [hout, hval, hns] at this
  exact this

/-- **From code to hardware.** -/
theorem Contract.realizes {C : World → Prop} {p : Build Unit} {ins : List (String × Nat)} {out : String} {k : Nat} {f : List Pat → BitVec k}
    (hc : Contract F Z C p ins out k f) (hC : C World.init) (P : (String → Nat) → BitVec k → Prop)
    (hP : ∀ v : String → Nat, P v (f (ins.map fun i => (i.2, v i.1)))) : Realizes p ins out k P := by
  obtain ⟨w, g, o, h1, h2, h3, h4, h5, h6, h7, h8, h9, h10, h11⟩ := hc.built hC
  refine ⟨w, g, h1, h3, fun file => ⟨?_, fun cells size hcomp => ?_⟩⟩
  · obtain ⟨order, prog, -, -, e⟩ := asap_succeeds h2 h3 file h4 sortGraph_enum
    obtain ⟨X, -, e⟩ := e _ (List.Perm.refl _)
    exact ⟨_, _, e⟩
  · obtain ⟨wire, delay, c1, c2⟩ := compiled_computes h2 h3 h4 h5 hcomp
    obtain ⟨d1, src, d2⟩ := c1 o h6 h7
    refine ⟨wire o, delay o, _, src, d1, by rw [h8] at d2; exact d2, fun port oob reg hp ho => ?_⟩
    obtain ⟨p1, p2⟩ := h11 port hp
    obtain ⟨r1, r2⟩ := c2 port oob reg p1 ho
    refine ⟨r1, fun σ hr t => ⟨_, ?_, hP fun name => port name t⟩⟩
    rw [r2 σ hr o h6 h7 t _ (p2 t), h9, h10]

end

end Verif.Kernels
