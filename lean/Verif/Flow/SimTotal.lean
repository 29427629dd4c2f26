import Verif.Flow.SimHw
import Verif.Flow.Agree
import Verif.Flow.HwTotal
/-
When a simulation succeeds, and that it then shows the streams of the kernel.
-/
namespace Verif.Flow
open Verif.Dfcxx

/-! ### Specification -/

/-- Nodes on which one step of the simulator cannot go wrong: wrapping (unsigned) arithmetic, shifts by less than 64, multiplexers with an
alternative for every value of the select. -/
def SimTotal (V : Nat → NodeV) (n : Nat) : Prop :=
  match (V n).op with
  | .ADD | .SUB | .MUL => ∃ i f, (V n).ty = .fixed false i f
  | .SHL | .SHR => ∀ k, (V n).data = .bitShift k → k < 64
  | .MUX => ∀ c alts, (V n).srcs = c :: alts → 2 ^ width (V c).ty ≤ alts.length
  | _ => True

/-- What a document feeds to the input ports: the value its block `t` gives to the name, 0 if the block does not mention it. -/
def docPort (doc : List Block) : String → Nat → Nat := fun nm t =>
  match docTick doc t nm with
  | .ok v => v.toNat
  | .error _ => 0

/-- The document mentions every input, and never gives it a value that does not fit. -/
def DocFits (ins : List (String × Nat)) (doc : List Block) : Prop :=
  ∀ i ∈ ins, (∃ b ∈ doc, ∃ v, (i.1, v) ∈ b) ∧ ∀ b ∈ doc, ∀ v, (i.1, v) ∈ b → v.toNat < 2 ^ i.2

/-! ### Existence of the values -/

theorem bool_total {p : Prop} : ∃ v : Word, IsBool v p := by
  by_cases h : p
  · exact ⟨1, fun _ => rfl, fun hn => absurd h hn⟩
  · exact ⟨0, fun hp => absurd hp h, fun _ => rfl⟩

theorem unsigned_total (r : Int) : ∃ v : Word, IsUnsigned v r := by
  refine ⟨BitVec.ofInt 64 r, ?_⟩
  unfold IsUnsigned
  rw [BitVec.toNat_ofInt]
  exact Int.toNat_of_nonneg (Int.emod_nonneg _ (by decide))

theorem word_total {n : Nat} (h : n < 2 ^ 64) : ∃ v : Word, v.toNat = n :=
  ⟨BitVec.ofNat 64 n, by rw [BitVec.toNat_ofNat, Nat.mod_eq_of_lt h]⟩

/-- **Every node has a value.** -/
theorem Comparable.total {F : FloatOps} {V : Nat → NodeV} {L : Nat → Nat} {nodes order : List Nat} (K : Comparable V L nodes)
    (hperm : order.Perm nodes) (ht : TopoOrder V order) (T : ∀ n ∈ nodes, SimTotal V n)
    {port : String → Nat → Nat} {t : Nat} {inp : TickIn} (hp : PortsOK V nodes port) (hin : SameInputs V nodes port t inp) :
    ∀ n ∈ order, ∃ v, Denotes F V inp n v := by
  have main : ∀ (rest pre : List Nat), order = pre ++ rest → (∀ n ∈ pre, ∃ v, Denotes F V inp n v) →
      ∀ n ∈ order, ∃ v, Denotes F V inp n v := by
    intro rest
    induction rest with
    | nil => intro pre e h; rw [e, List.append_nil]; exact h
    | cons n rest ih =>
      intro pre e h
      refine ih (pre ++ [n]) (by simp [e]) ?_
      intro m hm
      rcases List.mem_append.mp hm with hm | hm
      · exact h m hm
      · rw [List.mem_singleton] at hm
        subst hm
        have hno : m ∈ order := by simp [e]
        have hn : m ∈ nodes := hperm.mem_iff.mp hno
        have hsrc : ∀ s ∈ (V m).srcs, ∃ v, Denotes F V inp s v := by
          intro s hs
          refine h s (before_prefix ?_ (e ▸ ht.before m hno s hs))
          rw [← e]; exact ht.nodup
        choose! val hval using hsrc
        have hc := K.compl m hn
        have hs := (K.supp m hn).2
        have ha := (K.agree m hn).2
        have hT := T m hn
        have hSh := K.shape m hn
        suffices hM : ∃ v, Means F (V m) inp ((V m).srcs.map val) v by
          obtain ⟨v, hv⟩ := hM
          exact ⟨v, .node m val v hval hv⟩
        cases ho : (V m).op <;> simp only [ho] at hs ha <;> simp only [SimTotal, ho] at hT
        case IN => exact ⟨_, by simp only [Means, ho]; exact hin m hn ho⟩
        case CONST =>
          obtain ⟨v, hv⟩ := hSh.const ho
          exact ⟨v, by simp only [Means, ho]; exact hv⟩
        case OUT =>
          obtain ⟨s, hs1⟩ := out_srcs hc ho
          exact ⟨val s, by simp only [Means, ho, hs1, List.map_cons]⟩
        case ADD | SUB | MUL =>
          obtain ⟨a, b, hab⟩ := hc.binary (by simp [ho])
          obtain ⟨i, f, hf⟩ := hT
          simp only [Means, ho, hab, hf, List.map_cons]
          exact unsigned_total _
        case LESS | LESSEQ | GREATER | GREATEREQ | EQ | NEQ =>
          obtain ⟨a, b, hab⟩ := hc.binary (by simp [ho])
          have hf : (V m).ty = .fixed false 1 0 := by rw [hSh.comp (by rw [ho]; rfl)]; rfl
          simp only [Means, ho, hab, hf, List.map_cons]
          exact bool_total
        case AND =>
          obtain ⟨a, b, hab⟩ := hc.binary (by simp [ho])
          simp only [Means, ho, hab, List.map_cons]
          exact ⟨val a &&& val b, fun i => BitVec.getLsbD_and⟩
        case OR =>
          obtain ⟨a, b, hab⟩ := hc.binary (by simp [ho])
          simp only [Means, ho, hab, List.map_cons]
          exact ⟨val a ||| val b, fun i => BitVec.getLsbD_or⟩
        case XOR =>
          obtain ⟨a, b, hab⟩ := hc.binary (by simp [ho])
          simp only [Means, ho, hab, List.map_cons]
          exact ⟨val a ^^^ val b, fun i => BitVec.getLsbD_xor⟩
        case NOT =>
          obtain ⟨a, ha1⟩ := hc.unary (by simp [ho])
          simp only [Means, ho, ha1, List.map_cons]
          exact ⟨~~~ val a, fun i hi => by rw [BitVec.getLsbD_not]; simp [hi]⟩
        case SHL =>
          obtain ⟨a, ha1⟩ := hc.unary (by simp [ho])
          obtain ⟨k, hk⟩ := hSh.shift (by simp [ho])
          simp only [Means, ho, ha1, List.map_cons]
          obtain ⟨v, hv⟩ := word_total (n := (val a).toNat * 2 ^ k % 2 ^ 64) (Nat.mod_lt _ (Nat.two_pow_pos _))
          exact ⟨v, k, hk, hT k hk, hv⟩
        case SHR =>
          obtain ⟨a, ha1⟩ := hc.unary (by simp [ho])
          obtain ⟨k, hk⟩ := hSh.shift (by simp [ho])
          simp only [Means, ho, ha1, List.map_cons]
          obtain ⟨v, hv⟩ := word_total (n := (val a).toNat / 2 ^ k) (Nat.lt_of_le_of_lt (Nat.div_le_self _ _) (val a).isLt)
          exact ⟨v, k, hk, hT k hk, hv⟩
        case MUX =>
          obtain ⟨hd, c, alts, he⟩ := hc.mux ho
          simp only [Means, ho, he, List.map_cons]
          have hcm : c ∈ (V m).srcs := by simp [he]
          have hlt := exact_lt K hp.fits hin (hval c hcm) (K.closed m hn c hcm) (ha _ _ he).1
          have hlen := hT _ _ he
          have hl : (val c).toNat < alts.length := Nat.lt_of_lt_of_le hlt hlen
          exact ⟨val alts[(val c).toNat], hd, val c, alts.map val, rfl, by
            rw [List.getElem?_map, List.getElem?_eq_getElem hl]; rfl⟩
  exact main order [] rfl (by simp)

/-! ### Documents -/

theorem lastValue_mem {b : Block} {nm : String} {v : Word} (h : lastValue b nm = some v) : (nm, v) ∈ b := by
  unfold lastValue at h
  rw [Option.map_eq_some_iff] at h
  obtain ⟨p, hp, rfl⟩ := h
  have h1 := List.mem_of_find?_eq_some hp
  have h2 := List.find?_some hp
  simp only [decide_eq_true_eq] at h2
  rw [← h2]
  exact List.mem_reverse.mp h1

theorem docFits_tick {ins : List (String × Nat)} {doc : List Block} (h : DocFits ins doc) {i : String × Nat} (hi : i ∈ ins) (t : Nat) :
    docTick doc t i.1 = .ok (BitVec.ofNat 64 (docPort doc i.1 t)) ∧ docPort doc i.1 t < 2 ^ i.2 := by
  obtain ⟨⟨b, hb, v, hv⟩, hfit⟩ := h i hi
  have e : docTick doc t i.1 = .ok (((doc[t]?).bind (lastValue · i.1)).getD 0) := by
    unfold docTick
    rw [if_pos]
    rw [List.any_eq_true]
    exact ⟨b, hb, by rw [List.any_eq_true]; exact ⟨_, hv, by simp⟩⟩
  have ep : docPort doc i.1 t = (((doc[t]?).bind (lastValue · i.1)).getD 0).toNat := by
    unfold docPort; rw [e]
  refine ⟨by rw [e, ep]; simp, ?_⟩
  rw [ep]
  cases hx : (doc[t]?).bind (lastValue · i.1) with
  | none => simp
  | some u =>
    rw [Option.bind_eq_some_iff] at hx
    obtain ⟨b', hb', hu⟩ := hx
    exact hfit b' (List.mem_of_getElem? hb') u (lastValue_mem hu)

/-- **Simulation succeeds** on every document that feeds the inputs values that fit. -/
theorem Comparable.accepts {F : FloatOps} {V : Nat → NodeV} {L : Nat → Nat} {nodes order it : List Nat} (K : Comparable V L nodes)
    (hperm : order.Perm nodes) (ht : TopoOrder V order) (T : ∀ n ∈ nodes, SimTotal V n) (hit : it.Perm order)
    {doc : List Block} {lines : List (List Char)} (hdoc : Renders doc lines) (hne : ∃ b ∈ doc, b ≠ []) (hlen : doc.length ≤ 200)
    {port : String → Nat → Nat} (hp : PortsOK V nodes port) (hin : ∀ t < doc.length, SameInputs V nodes port t (docTick doc t)) :
    ∃ vcd, simulateLines F V order it lines = .ok (some vcd) :=
  simulate_document_succeeds F V order it ht (fun n hn => K.shape n (hperm.mem_iff.mp hn)) hit doc lines hdoc hne hlen
    (fun i hi => noWrap_of_agree K hperm hp (hin i hi)) (fun i hi => K.total hperm ht T hp (hin i hi))
    (fun n hn => by
      have hm := hperm.mem_iff.mp hn
      rw [totalBits_width (K.supp n hm).1]; exact (K.agree n hm).1)

/-- **C59, acceptance.**  For every kernel built by any sensible history of API calls, finished, without scalar inputs, whose operators
agree between simulation and hardware and cannot go wrong in simulation, and any order of processing: every file of 1 to 200 steps that
mentions the inputs and gives them values that fit is simulated successfully. -/
theorem simulation_accepted {F : FloatOps} {w : World} {g : KGraph} {G : TopSort.Graph Nat} (h : Hist F Proper World.init w)
    (hf : Finished w g) (he : Enumeration w g G) {L : Nat → Nat} (S : ∀ n ∈ g.nodes, Supported w.view (L n) n)
    (A : ∀ n ∈ g.nodes, SimAgrees w.view n) (T : ∀ n ∈ g.nodes, SimTotal w.view n)
    (hk : ∀ n ∈ g.nodes, (w.view n).op = .IN → (w.view n).kind = .stream) (F' : FloatOps) :
    ∃ order, TopSort.topSort G = .ok order ∧ ∀ it, it.Perm order → ∀ (doc : List Block) (lines : List (List Char)), Renders doc lines →
      (∃ b ∈ doc, b ≠ []) → doc.length ≤ 200 →
      (∀ n ∈ g.nodes, (w.view n).op = .IN → DocFits [((w.view n).name, width (w.view n).ty)] doc) →
      ∃ vcd, simulate F' w.view order it (lines.flatMap (· ++ ['\n'])) = .ok (some vcd) := by
  obtain ⟨order, s1, s2, s3, s4, s5⟩ := finished_kernel_is_processable h hf he
  have K : Comparable w.view L g.nodes :=
    ⟨fun n hn => s4 n (s2.mem_iff.mpr hn), fun n hn => s5 n (s2.mem_iff.mpr hn), S, A,
      fun n hn s hs => s2.mem_iff.mp (srcs_in_order s3 (s2.mem_iff.mpr hn) hs).1⟩
  refine ⟨order, s1, fun it hit doc lines hdoc hne hlen hfit => ?_⟩
  rw [simulate_file_eq_lines _ _ _ _ _ (renders_no_newline hdoc)]
  have key : ∀ n ∈ g.nodes, (w.view n).op = .IN → ∀ t, _ := fun n hn ho t => docFits_tick (hfit n hn ho) (List.mem_singleton.mpr rfl) t
  exact K.accepts s2 s3 T hit hdoc hne hlen (port := docPort doc) ⟨fun n hn ho t => (key n hn ho t).2, fun n hn ho hs => absurd (hk n hn ho) hs⟩
    fun t _ n hn ho => (key n hn ho t).1

/-- `y = x + x` meets the hypotheses. -/
theorem ex_accepted (F : FloatOps) : (∀ n ∈ exGraph.nodes, Supported (after F exCmds).view 0 n) ∧
    (∀ n ∈ exGraph.nodes, SimAgrees (after F exCmds).view n) ∧ (∀ n ∈ exGraph.nodes, SimTotal (after F exCmds).view n) ∧
    (∀ n ∈ exGraph.nodes, ((after F exCmds).view n).op = .IN → ((after F exCmds).view n).kind = .stream) ∧
    ∀ n ∈ exGraph.nodes, ((after F exCmds).view n).op = .IN →
      DocFits [(((after F exCmds).view n).name, width ((after F exCmds).view n).ty)] docX := by
  obtain ⟨v0, v4, v5⟩ := ex_views F
  have hn : ∀ n ∈ exGraph.nodes, n = 5 ∨ n = 0 ∨ n = 4 := by
    intro n hn
    have hn : n ∈ [5, 0, 4] := hn
    simpa using hn
  refine ⟨fun n h => (ex_handled F (fun _ => 0)).supp n h, ex_agrees F, fun n h => ?_, fun n h ho => ?_, fun n h ho => ?_⟩ <;>
    rcases hn n h with rfl | rfl | rfl
  · unfold SimTotal; rw [v5]; trivial
  · unfold SimTotal; rw [v0]; trivial
  · unfold SimTotal; rw [v4]; exact ⟨8, 0, rfl⟩
  · rw [v5] at ho; cases ho
  · rw [v0]
  · rw [v4] at ho; cases ho
  · rw [v5] at ho; cases ho
  · rw [v0]
    intro i hi
    rw [List.mem_singleton] at hi
    subst hi
    refine ⟨⟨_, List.mem_cons_self, 3, by simp⟩, fun b hb v hv => ?_⟩
    simp only [docX, List.mem_cons, List.not_mem_nil, or_false] at hb
    rcases hb with rfl | rfl <;> simp at hv <;> subst hv <;> decide
  · rw [v4] at ho; cases ho

end Verif.Flow
