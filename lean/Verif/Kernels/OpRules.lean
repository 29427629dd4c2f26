import Verif.Kernels.Ops
import Verif.Std.Model
/-
One rule per operator: the value of the new stream in terms of the values of its operands.
-/
namespace Verif.Kernels
open Verif.Dfcxx Verif.Flow

section
variable {F : FloatOps} {Z : String → Prop} {N : List Nat} {w : World}

/-- The general rule, with the value. -/
theorem Good.op_does (hg : Good F Z N w) {c : Cmd} {op : OpType} {data : NodeData} {ty : DFType} {l : List Nat}
    (hex : w.exec F c = retOne (w.newOp w.cur op data ty l)) (hp : Proper w c)
    (hop : op ≠ .CONST ∧ op ≠ .IN ∧ op ≠ .OUT ∧ op ≠ .NONE) (hl : ∀ a ∈ l, Opd w a)
    (hok : ∀ V : Nat → NodeV, V w.next = ⟨op, data, ty, .stream, "", reads l⟩ → (∀ a ∈ l, V a = w.view a) → NodeOK Z V w.next)
    {k : Nat} (hk : width ty = k) (e : (Nat → Pat) → BitVec k)
    (hv : ∀ (V : Nat → NodeV) (ρ : Nat → Pat), V w.next = ⟨op, data, ty, .stream, "", reads l⟩ → Sat w ρ →
      NodeEq (patInterp fun _ => (0, 0)) V ρ w.next → ρ w.next = (k, (e ρ).toNat)) :
    Does F Z N (call1 F c) w (fun n w' => Str Z w' n e) := by
  obtain ⟨w', h1, h2, h3, h4, h5, h6⟩ := hg.op hex hp hop hl hok
  refine ⟨w.next, w', h1, h2, h3, ?_⟩
  have hop' : (w'.node w.next).op = op := congrArg NodeV.op h6
  refine ⟨⟨h4, .inl h5, by rw [hop']; exact hop.2.2.1, by rw [hop']; exact hop.2.2.2, ?_, ?_⟩, h5, congrArg NodeV.kind h6, ?_⟩
  · rw [show (w'.node w.next).ty = ty from congrArg NodeV.ty h6]; exact hk
  · intro ρ hρ
    refine hv w'.view ρ h6 (h3.sat ρ hρ) (hρ.eqs w.next h4 ?_ ?_)
    · rw [hop']; exact hop.2.2.2
    · rw [hop']; exact hop.2.1
  · intro e; rw [hop'] at e; exact absurd e hop.2.1

theorem opd_facts (hg : Good F Z N w) {k : Nat} {a : Nat} {e : (Nat → Pat) → BitVec k} (h : Val w a e) :
    TypeOK (w.node a).ty ∧ unsignedTy (w.node a).ty := ⟨((hg.opd_ok h.opd).supp 0).1, (hg.opd_ok h.opd).uns⟩

theorem srcs_reads {V : Nat → NodeV} {n : Nat} {op : OpType} {data : NodeData} {ty : DFType} {l : List Nat}
    (h : V n = ⟨op, data, ty, .stream, "", reads l⟩) : (V n).srcs = l := by rw [h]; exact reads_fst l

theorem pattern_nat (ty : DFType) (n : Nat) : pattern ty (n : Int) = n % 2 ^ width ty := by
  unfold pattern
  have : ((n : Int) % 2 ^ width ty) = ((n % 2 ^ width ty : Nat) : Int) := by push_cast; rfl
  rw [this]; rfl

theorem number_raw (k n : Nat) : number (.rawBits k) n = n := number_unsigned (show unsignedTy (.rawBits k) from rfl) n

/-- Nodes other than multiplexers and outputs. -/
theorem nodeOK_new {V : Nat → NodeV} {n : Nat} {op : OpType} {data : NodeData} {ty : DFType} {l : List Nat}
    (hV : V n = ⟨op, data, ty, .stream, "", reads l⟩) (huns : unsignedTy ty)
    (hop : op ≠ .NONE ∧ op ≠ .OFFSET ∧ op ≠ .NOT ∧ op ≠ .MUX ∧ op ≠ .OUT) (hsup : ∀ L, Supported V L n)
    (hs : ∀ s ∈ l, Opd w s) (he : ∀ s ∈ l, V s = w.view s) (hlen : l.length ≤ 128)
    (hdat : ∀ j, data ≠ .offset j := by simp) : NodeOK Z V n := by
  obtain ⟨h1, h2, h3, h4, h5⟩ := hop
  refine ⟨hsup, by rw [hV]; exact huns, by rw [hV]; exact h1, by rw [hV]; exact h2, by rw [hV]; exact h3, ?_, .inl (by rw [srcs_reads hV]; exact hlen),
    by rw [hV]; exact fun h => absurd h h4, by rw [hV]; exact fun h => absurd h h5, by rw [hV]; exact hdat⟩
  rw [srcs_reads hV]
  intro s hm
  rw [he s hm]
  exact ⟨(hs s hm).notOut, (hs s hm).notNone⟩

theorem opd_one {a : Nat} (ha : Opd w a) : ∀ s ∈ [a], Opd w s := by simpa using ha

theorem opd_two {a b : Nat} (ha : Opd w a) (hb : Opd w b) : ∀ s ∈ [a, b], Opd w s := by
  simp only [List.mem_cons, List.not_mem_nil, or_false]
  rintro z (rfl | rfl)
  · exact ha
  · exact hb

/-- Concatenation. -/
theorem Good.cat (hg : Good F Z N w) {i j : Nat} {a b : Nat} {x : (Nat → Pat) → BitVec i} {y : (Nat → Pat) → BitVec j} (ha : Val w a x)
    (hb : Val w b y) (hh : (w.node a).kern = w.cur) (hs : i + j < 65536) :
    Does F Z N (call1 F (.cat a b)) w (fun n w' => Str Z w' n (fun ρ => x ρ ++ y ρ)) := by
  obtain ⟨ta, ua⟩ := opd_facts hg ha
  obtain ⟨tb, ub⟩ := opd_facts hg hb
  have hty : catType (w.node a).ty (w.node b).ty = .rawBits (i + j) := by
    unfold catType buildRawBits u16
    rw [totalBits_width ta, totalBits_width tb, ha.width, hb.width, Nat.mod_mod, Nat.mod_eq_of_lt hs]
  have hipos : 0 < i := by have := ta.1; rwa [ha.width] at this
  have htok : TypeOK (.rawBits (i + j)) := ⟨by simp only [Flow.width]; omega, hs, by intro e f h; cases h⟩
  have hopd := opd_two ha.opd hb.opd
  refine hg.op_does (c := .cat a b) (k := i + j) (op := .CAT) (data := .none) (ty := .rawBits (i + j)) (l := [a, b]) ?_
    ⟨⟨trivial, trivial, trivial⟩, trivial⟩ (by simp) hopd ?_ rfl _ ?_
  · unfold World.exec
    rw [if_neg (exec_guard hg.inv (c := .cat a b) (by simp [Cmd.vars, ha.live, hb.live]))]
    simp only [hh, hty]
  · intro V hV hs'
    refine nodeOK_new hV rfl (by simp) (fun L => ⟨by rw [hV]; exact htok, ?_⟩) hopd hs' (by simp)
    rw [show (V w.next).op = .CAT by rw [hV]]
    refine ⟨by rw [hV]; rfl, ?_⟩
    rw [srcs_reads hV]
    intro a' b' h
    cases h
    rw [hs' a (by simp), hs' b (by simp), hV]
    exact ⟨ua.trans ub.symm, by show i + j = _; rw [← ha.width, ← hb.width]; rfl⟩
  · intro V ρ hV hρ he
    unfold NodeEq at he
    rw [srcs_reads hV, hV] at he
    simp only [List.map_cons, List.map_nil, patInterp, opMeaning, Option.getD_some, Flow.width, ha.val ρ hρ, hb.val ρ hρ] at he
    rw [he, BitVec.toNat_append, Nat.shiftLeft_eq, Nat.mul_comm, Nat.two_pow_add_eq_or_of_lt (y ρ).isLt]

/-- Exclusive or of equally wide operands, not both constants. -/
theorem Good.xor (hg : Good F Z N w) {k : Nat} {a b : Nat} {x y : (Nat → Pat) → BitVec k} (ha : Val w a x) (hb : Val w b y)
    (hs : (w.node a).op ≠ .CONST ∨ (w.node b).op ≠ .CONST) :
    Does F Z N (call1 F (.bin .XOR a b)) w (fun n w' => Str Z w' n (fun ρ => x ρ ^^^ y ρ)) := by
  obtain ⟨ta, ua⟩ := opd_facts hg ha
  obtain ⟨tb, ub⟩ := opd_facts hg hb
  have hopd := opd_two ha.opd hb.opd
  refine hg.op_does (c := .bin .XOR a b) (k := k) (op := .XOR) (data := .none) (ty := (w.node a).ty) (l := [a, b]) ?_
    ⟨⟨trivial, trivial, trivial⟩, trivial⟩ (by simp) hopd ?_ ha.width _ ?_
  · unfold World.exec
    rw [if_neg (exec_guard hg.inv (c := .bin .XOR a b) (by simp [Cmd.vars, ha.live, hb.live]))]
    have ca := hg.inv.st.const a (live_lt hg.inv.st ha.live)
    have cb := hg.inv.st.const b (live_lt hg.inv.st hb.live)
    show (match (w.node a).kind, (w.node b).kind with
      | .const x, .const y => _ | .const _, _ => _ | _, _ => _) = _
    have keyA : (w.node a).op ≠ .CONST → (w.node a).kern = w.cur := fun h => ha.use.resolve_right h
    have keyB : (w.node b).op ≠ .CONST → (w.node b).kern = w.cur := fun h => hb.use.resolve_right h
    cases hka : (w.node a).kind with
    | const v =>
      have h1 : (w.node a).op = .CONST := ca.mpr (by rw [hka]; rfl)
      have h2 := hs.resolve_left (by simp [h1])
      cases hkb : (w.node b).kind with
      | const v' => exact absurd (cb.mpr (by rw [hkb]; rfl)) h2
      | _ => simp only [keyB h2]; rfl
    | _ =>
      have h1 : (w.node a).op ≠ .CONST := fun h => by have := ca.mp h; rw [hka] at this; cases this
      simp only [keyA h1]; rfl
  · intro V hV hs'
    refine nodeOK_new hV ua (by simp) (fun L => ⟨by rw [hV]; exact ta, ?_⟩) hopd hs' (by simp)
    rw [show (V w.next).op = .XOR by rw [hV]]
    refine ⟨by rw [hV]; exact ua, ?_⟩
    rw [srcs_reads hV]
    intro a' b' h
    cases h
    rw [hs' a (by simp), hs' b (by simp), hV]
    refine ⟨ua, ub, ?_⟩
    show Flow.width (w.node a).ty = max (Flow.width (w.node a).ty) (Flow.width (w.node b).ty)
    rw [ha.width, hb.width, Nat.max_self]
  · intro V ρ hV hρ he
    unfold NodeEq at he
    rw [srcs_reads hV, hV] at he
    simp only [List.map_cons, List.map_nil, patInterp, opMeaning, Option.getD_some, ha.width, ha.val ρ hρ, hb.val ρ hρ] at he
    rw [he, BitVec.toNat_xor]

/-- Addition of equally wide streams. -/
theorem Good.add (hg : Good F Z N w) {k : Nat} {a b : Nat} {x y : (Nat → Pat) → BitVec k} (ha : Str Z w a x) (hb : Val w b y) :
    Does F Z N (call1 F (.bin .ADD a b)) w (fun n w' => Str Z w' n (fun ρ => x ρ + y ρ)) := by
  obtain ⟨ta, ua⟩ := opd_facts hg ha.val
  obtain ⟨tb, ub⟩ := opd_facts hg hb
  have hopd := opd_two ha.val.opd hb.opd
  refine hg.op_does (c := .bin .ADD a b) (k := k) (op := .ADD) (data := .none) (ty := (w.node a).ty) (l := [a, b]) ?_
    ⟨⟨trivial, trivial, trivial⟩, trivial⟩ (by simp) hopd ?_ ha.val.width _ ?_
  · unfold World.exec
    rw [if_neg (exec_guard hg.inv (c := .bin .ADD a b) (by simp [Cmd.vars, ha.val.live, hb.live]))]
    show (match (w.node a).kind, (w.node b).kind with
      | .const x, .const y => _ | .const _, _ => _ | _, _ => _) = _
    rw [ha.kind]
    simp only [ha.here]
    rfl
  · intro V hV hs'
    refine nodeOK_new hV ua (by simp) (fun L => ⟨by rw [hV]; exact ta, ?_⟩) hopd hs' (by simp)
    rw [show (V w.next).op = .ADD by rw [hV]]
    simp only
    rw [srcs_reads hV]
    intro a' b' h
    cases h
    rw [hs' a (by simp), hs' b (by simp), hV]
    have wa : Flow.width (w.view a).ty = k := ha.val.width
    have wb : Flow.width (w.view b).ty = k := hb.width
    have wn : Flow.width (w.node a).ty = k := ha.val.width
    simp only [wa, wb, wn]
    exact ⟨by simp, .inl (Nat.le_refl _), .inl (Nat.le_refl _), .inr ⟨ua, ua, ub⟩⟩
  · intro V ρ hV hρ he
    unfold NodeEq at he
    rw [srcs_reads hV, hV] at he
    simp only [List.map_cons, List.map_nil, patInterp, opMeaning, Option.getD_some, ha.val.width, ha.val.val ρ hρ, hb.val ρ hρ, number_raw] at he
    rw [he, BitVec.toNat_add, ← Nat.cast_add, pattern_nat, ha.val.width]

/-- Multiplication of equally wide streams. -/
theorem Good.mul (hg : Good F Z N w) {k : Nat} {a b : Nat} {x y : (Nat → Pat) → BitVec k} (ha : Str Z w a x) (hb : Val w b y) :
    Does F Z N (call1 F (.bin .MUL a b)) w (fun n w' => Str Z w' n (fun ρ => x ρ * y ρ)) := by
  obtain ⟨ta, ua⟩ := opd_facts hg ha.val
  obtain ⟨tb, ub⟩ := opd_facts hg hb
  have hopd := opd_two ha.val.opd hb.opd
  refine hg.op_does (c := .bin .MUL a b) (k := k) (op := .MUL) (data := .none) (ty := (w.node a).ty) (l := [a, b]) ?_
    ⟨⟨trivial, trivial, trivial⟩, trivial⟩ (by simp) hopd ?_ ha.val.width _ ?_
  · unfold World.exec
    rw [if_neg (exec_guard hg.inv (c := .bin .MUL a b) (by simp [Cmd.vars, ha.val.live, hb.live]))]
    show (match (w.node a).kind, (w.node b).kind with
      | .const x, .const y => _ | .const _, _ => _ | _, _ => _) = _
    rw [ha.kind]
    simp only [ha.here]
    rfl
  · intro V hV hs'
    refine nodeOK_new hV ua (by simp) (fun L => ⟨by rw [hV]; exact ta, ?_⟩) hopd hs' (by simp)
    rw [show (V w.next).op = .MUL by rw [hV]]
    simp only
    rw [srcs_reads hV]
    intro a' b' h
    cases h
    rw [hs' a (by simp), hs' b (by simp), hV]
    have wa : Flow.width (w.view a).ty = k := ha.val.width
    have wb : Flow.width (w.view b).ty = k := hb.width
    have wn : Flow.width (w.node a).ty = k := ha.val.width
    simp only [wa, wb, wn]
    exact ⟨by simp, .inl (Nat.le_refl _), .inl (Nat.le_refl _), .inr ⟨ua, ua, ub⟩⟩
  · intro V ρ hV hρ he
    unfold NodeEq at he
    rw [srcs_reads hV, hV] at he
    simp only [List.map_cons, List.map_nil, patInterp, opMeaning, Option.getD_some, ha.val.width, ha.val.val ρ hρ, hb.val ρ hρ, number_raw] at he
    rw [he, BitVec.toNat_mul, ← Nat.cast_mul, pattern_nat, ha.val.width]

/-- Bit ranges. -/
theorem Good.bits (hg : Good F Z N w) {k : Nat} {a : Nat} {x : (Nat → Pat) → BitVec k} (ha : Val w a x) (hh : (w.node a).kern = w.cur)
    {hi lo m : Nat} (hm : m = hi - lo + 1) (h1 : lo ≤ hi) (h2 : hi < k) :
    Does F Z N (call1 F (.bits a hi lo)) w (fun n w' => Str Z w' n (fun ρ => (x ρ).extractLsb' lo m)) := by
  obtain ⟨ta, ua⟩ := opd_facts hg ha
  have hk : k < 65536 := by have := ta.2.1; rwa [ha.width] at this
  have htok : TypeOK (.rawBits m) := ⟨by simp only [Flow.width]; omega, by simp only [Flow.width]; omega, by intro e f h; cases h⟩
  have hopd := opd_one ha.opd
  refine hg.op_does (c := .bits a hi lo) (k := m) (op := .BITS) (data := .bitsRange hi lo) (ty := .rawBits m) (l := [a]) ?_
    ⟨⟨trivial, trivial, trivial⟩, trivial⟩ (by simp) hopd ?_ rfl _ ?_
  · unfold World.exec
    rw [if_neg (exec_guard hg.inv (c := .bits a hi lo) (by simp [Cmd.vars, ha.live]))]
    have hb : bitsRange (u16 hi) (u16 lo) (w.node a).ty.totalBits = some (hi, lo, .rawBits m) := by
      rw [totalBits_width ta, ha.width]
      have e1 : u16 hi = hi := Nat.mod_eq_of_lt (by omega)
      have e2 : u16 lo = lo := Nat.mod_eq_of_lt (by omega)
      rw [e1, e2]
      unfold bitsRange buildRawBits u16
      have e3 : (if hi > lo then hi else lo) = hi := by split <;> omega
      have e4 : (if hi > lo then lo else hi) = lo := by split <;> omega
      simp only [e3, e4]
      rw [if_neg (by omega), ← hm, Nat.mod_eq_of_lt (by omega)]
    simp only [hb, hh]
  · intro V hV hs'
    refine nodeOK_new hV rfl (by simp) (fun L => ⟨by rw [hV]; exact htok, ?_⟩) hopd hs' (by simp)
    rw [show (V w.next).op = .BITS by rw [hV]]
    simp only
    rw [srcs_reads hV]
    intro l r h
    rw [hV] at h
    cases h
    refine ⟨h1, by rw [hV]; rfl, by rw [hV]; exact hm, ?_⟩
    simp only [List.mem_cons, List.not_mem_nil, or_false]
    rintro s rfl
    rw [hs' s (by simp)]
    show hi < Flow.width (w.node s).ty
    rw [ha.width]; exact h2
  · intro V ρ hV hρ he
    unfold NodeEq at he
    rw [srcs_reads hV, hV] at he
    simp only [List.map_cons, List.map_nil, patInterp, opMeaning, paramsOf, dataOf, Int.toNat_natCast, Option.getD_some, Flow.width, ha.val ρ hρ] at he
    rw [he, BitVec.extractLsb'_toNat, Nat.shiftRight_eq_div_pow, hm]

/-- A cast to an equally wide unsigned type. -/
theorem Good.cast (hg : Good F Z N w) {k : Nat} {a : Nat} {x : (Nat → Pat) → BitVec k} (ha : Val w a x) (hh : (w.node a).kern = w.cur)
    {ty : DFType} (ht : TypeOK ty) (hu : unsignedTy ty) (hw : Flow.width ty = k) :
    Does F Z N (call1 F (.cast a ty false)) w (fun n w' => Str Z w' n x) := by
  have hopd := opd_one ha.opd
  refine hg.op_does (c := .cast a ty false) (k := k) (op := .CAST) (data := .none) (ty := ty) (l := [a]) ?_
    ⟨⟨trivial, trivial, trivial⟩, trivial⟩ (by simp) hopd ?_ hw _ ?_
  · unfold World.exec
    rw [if_neg (exec_guard hg.inv (c := .cast a ty false) (by simp [Cmd.vars, ha.live]))]
    simp only [hh]
    rfl
  · intro V hV hs'
    refine nodeOK_new hV hu (by simp) (fun L => ⟨by rw [hV]; exact ht, ?_⟩) hopd hs' (by simp)
    rw [show (V w.next).op = .CAST by rw [hV]]
    simp only
    rw [srcs_reads hV, hV]
    simp only [List.mem_cons, List.not_mem_nil, or_false]
    rintro s rfl
    rw [hs' s (by simp)]
    have wa : Flow.width (w.view s).ty = k := ha.width
    rw [wa, hw]
    exact ⟨.inl (Nat.le_refl _), .inl (Nat.le_refl _)⟩
  · intro V ρ hV hρ he
    unfold NodeEq at he
    rw [srcs_reads hV, hV] at he
    simp only [List.map_cons, List.map_nil, patInterp, opMeaning, Option.getD_some, hw, ha.val ρ hρ, number_raw, pattern_nat] at he
    rw [he, Nat.mod_eq_of_lt (x ρ).isLt]

/-- Shifts by a constant number of bits. -/
theorem Good.shl (hg : Good F Z N w) {k : Nat} {a : Nat} {x : (Nat → Pat) → BitVec k} (ha : Val w a x) (hh : (w.node a).kern = w.cur)
    (hs : (w.node a).op ≠ .CONST) {s : Nat} (hlt : s < 256) :
    Does F Z N (call1 F (.shift true a s)) w (fun n w' => Str Z w' n (fun ρ => x ρ <<< s)) := by
  obtain ⟨ta, ua⟩ := opd_facts hg ha
  have hopd := opd_one ha.opd
  refine hg.op_does (c := .shift true a s) (k := k) (op := .SHL) (data := .bitShift s) (ty := (w.node a).ty) (l := [a]) ?_
    ⟨⟨trivial, trivial, trivial⟩, trivial⟩ (by simp) hopd ?_ ha.width _ ?_
  · unfold World.exec
    rw [if_neg (exec_guard hg.inv (c := .shift true a s) (by simp [Cmd.vars, ha.live]))]
    have ca := hg.inv.st.const a (live_lt hg.inv.st ha.live)
    have hu8 : u8 s = s := Nat.mod_eq_of_lt hlt
    simp only [hh, hu8]
    cases hka : (w.node a).kind with
    | const v => exact absurd (ca.mpr (by rw [hka]; rfl)) hs
    | _ => rfl
  · intro V hV hs'
    refine nodeOK_new hV ua (by simp) (fun L => ⟨by rw [hV]; exact ta, ?_⟩) hopd hs' (by simp)
    rw [show (V w.next).op = .SHL by rw [hV]]
    simp only
    rw [srcs_reads hV, hV]
    refine ⟨ua, ?_⟩
    simp only [List.mem_cons, List.not_mem_nil, or_false]
    rintro s rfl
    rw [hs' s (by simp)]
    exact ⟨rfl, rfl⟩
  · intro V ρ hV hρ he
    unfold NodeEq at he
    rw [srcs_reads hV, hV] at he
    simp only [List.map_cons, List.map_nil, patInterp, opMeaning, paramsOf, dataOf, Int.toNat_natCast, Option.getD_some, ha.width, ha.val ρ hρ, number_raw] at he
    rw [he, BitVec.toNat_shiftLeft, Nat.shiftLeft_eq]
    have e : (((x ρ).toNat : Int) * 2 ^ s) = (((x ρ).toNat * 2 ^ s : Nat) : Int) := by push_cast; rfl
    rw [e, pattern_nat, ha.width]

theorem Good.shr (hg : Good F Z N w) {k : Nat} {a : Nat} {x : (Nat → Pat) → BitVec k} (ha : Val w a x) (hh : (w.node a).kern = w.cur)
    (hs : (w.node a).op ≠ .CONST) {s : Nat} (hlt : s < 256) :
    Does F Z N (call1 F (.shift false a s)) w (fun n w' => Str Z w' n (fun ρ => x ρ >>> s)) := by
  obtain ⟨ta, ua⟩ := opd_facts hg ha
  have hopd := opd_one ha.opd
  refine hg.op_does (c := .shift false a s) (k := k) (op := .SHR) (data := .bitShift s) (ty := (w.node a).ty) (l := [a]) ?_
    ⟨⟨trivial, trivial, trivial⟩, trivial⟩ (by simp) hopd ?_ ha.width _ ?_
  · unfold World.exec
    rw [if_neg (exec_guard hg.inv (c := .shift false a s) (by simp [Cmd.vars, ha.live]))]
    have ca := hg.inv.st.const a (live_lt hg.inv.st ha.live)
    have hu8 : u8 s = s := Nat.mod_eq_of_lt hlt
    simp only [hh, hu8]
    cases hka : (w.node a).kind with
    | const v => exact absurd (ca.mpr (by rw [hka]; rfl)) hs
    | _ => rfl
  · intro V hV hs'
    refine nodeOK_new hV ua (by simp) (fun L => ⟨by rw [hV]; exact ta, ?_⟩) hopd hs' (by simp)
    rw [show (V w.next).op = .SHR by rw [hV]]
    simp only
    rw [srcs_reads hV, hV]
    simp only [List.mem_cons, List.not_mem_nil, or_false]
    rintro s rfl
    rw [hs' s (by simp)]
    exact ⟨rfl, rfl⟩
  · intro V ρ hV hρ he
    unfold NodeEq at he
    rw [srcs_reads hV, hV] at he
    simp only [List.map_cons, List.map_nil, patInterp, opMeaning, paramsOf, dataOf, Int.toNat_natCast, Option.getD_some, ha.width, ha.val ρ hρ, number_raw] at he
    rw [he, BitVec.toNat_ushiftRight, Nat.shiftRight_eq_div_pow]
    have e : (((x ρ).toNat : Int) / 2 ^ s) = (((x ρ).toNat / 2 ^ s : Nat) : Int) := by push_cast; rfl
    rw [e, pattern_nat, ha.width, Nat.mod_eq_of_lt (Nat.lt_of_le_of_lt (Nat.div_le_self _ _) (x ρ).isLt)]

/-- Multiplexers with an alternative for every value of the select. -/
theorem Good.mux (hg : Good F Z N w) {k m : Nat} {c : Nat} {x : (Nat → Pat) → BitVec k} (hc : Str Z w c x) {as : List Nat}
    {ys : List ((Nat → Pat) → BitVec m)} (ha : List.Forall₂ (fun a y => Val w a y) as ys) (hlen : 2 ^ k ≤ as.length)
    (hfew : as.length ≤ 127 ∨ ∀ a ∈ as, (w.node a).op = .CONST) :
    Does F Z N (call1 F (.mux c as)) w (fun n w' => Str Z w' n (fun ρ => Std.mux (x ρ) (ys.map (· ρ)))) := by
  have hall : ∀ a ∈ as, ∃ y, Val w a (k := m) y := by
    intro a hm
    obtain ⟨i, hi⟩ := List.mem_iff_getElem.mp hm
    obtain ⟨hi1, hi2⟩ := hi
    have := List.Forall₂.get ha (by exact hi1) (by rw [← ha.length_eq]; exact hi1)
    exact ⟨_, by rw [← hi2]; exact this⟩
  cases as with
  | nil => simp at hlen
  | cons a0 as =>
    obtain ⟨y0, h0⟩ := hall a0 (by simp)
    obtain ⟨t0, u0⟩ := opd_facts hg h0
    have hopd : ∀ a ∈ c :: a0 :: as, Opd w a := by
      intro a hm
      rcases List.mem_cons.mp hm with rfl | hm
      · exact hc.val.opd
      · obtain ⟨y, hy⟩ := hall a hm; exact hy.opd
    refine hg.op_does (c := .mux c (a0 :: as)) (k := m) (op := .MUX) (data := .muxId 0) (ty := (w.node a0).ty) (l := c :: a0 :: as) ?_
      ⟨⟨trivial, trivial, trivial⟩, trivial⟩ (by simp) hopd ?_ h0.width _ ?_
    · unfold World.exec
      rw [if_neg (exec_guard hg.inv (c := .mux c (a0 :: as)) fun a hm => (hopd a hm).live)]
    · intro V hV hs'
      refine ⟨fun L => ⟨by rw [hV]; exact t0, ?_⟩, by rw [hV]; exact u0, by rw [hV]; simp, by rw [hV]; simp, by rw [hV]; simp, ?_, ?_, ?_, by rw [hV]; simp, by rw [hV]; simp⟩
      · rw [show (V w.next).op = .MUX by rw [hV]]
        simp only
        rw [srcs_reads hV]
        intro c' alts h
        cases h
        rw [hs' c (by simp), hV]
        refine ⟨hc.kind, by simp, fun a hm => ?_⟩
        obtain ⟨y, hy⟩ := hall a hm
        rw [hs' a (by simp [hm])]
        exact ⟨hy.width.trans h0.width.symm, ((opd_facts hg hy).2).trans u0.symm⟩
      · rw [srcs_reads hV]
        intro s hm
        rw [hs' s hm]
        exact ⟨(hopd s hm).notOut, (hopd s hm).notNone⟩
      · rw [srcs_reads hV]
        rcases hfew with h | h
        · left; simp only [List.length_cons] at h ⊢; omega
        · right
          intro s hm
          rw [hs' s (by simp [show s ∈ a0 :: as from hm])]
          exact h s hm
      · intro _ c' alts h
        rw [srcs_reads hV] at h
        cases h
        rw [hs' c (by simp)]
        refine ⟨?_, hc.sel⟩
        show 2 ^ Flow.width (w.node c).ty ≤ _
        rw [hc.val.width]; exact hlen
    · intro V ρ hV hρ he
      unfold NodeEq at he
      rw [srcs_reads hV, hV] at he
      simp only at he
      have hlt : (x ρ).toNat < (a0 :: as).length := Nat.lt_of_lt_of_le (x ρ).isLt hlen
      have hlt' : (x ρ).toNat < ys.length := by rw [← ha.length_eq]; exact hlt
      have h1 := he c (a0 :: as) rfl ((a0 :: as)[(x ρ).toNat]) (by
        show (a0 :: as)[(ρ c).2]? = _
        rw [hc.val.val ρ hρ]
        exact List.getElem?_eq_getElem hlt)
      rw [h1]
      have h2 : Val w (a0 :: as)[(x ρ).toNat] ys[(x ρ).toNat] := List.Forall₂.get ha hlt hlt'
      rw [h2.val ρ hρ]
      unfold Std.mux
      rw [List.getD_eq_getElem?_getD, List.getElem?_map, List.getElem?_eq_getElem hlt']
      rfl

/-- Constants. -/
theorem Good.const (hg : Good F Z N w) {k : Nat} {ty : DFType} (ht : TypeOK ty) (hu : unsignedTy ty) (hw : Flow.width ty = k) (v : Word) :
    Does F Z N (call1 F (.const ty v)) w
      (fun n w' => Val w' n (fun _ => BitVec.ofNat k v.toNat) ∧ (w'.node n).op = .CONST ∧ (w'.node n).kern = 0 ∧
        (w'.node n).kind = .const v ∧ (w'.node n).ty = ty) := by
  have hi := hg.inv
  obtain ⟨g0, hg0, h00⟩ := hi.st.top
  have hk0 : w.kernel 0 = some g0 := by rw [← h00]; exact kernel_eq hi.st hg0
  obtain ⟨w', n, hcr⟩ : ∃ w' n, w.createOrUseConst ty v = .ok (w', n) := by
    unfold World.createOrUseConst
    rw [hk0]
    simp only
    cases g0.starts.find? (w.isConstNode ty v) with
    | some n => exact ⟨_, _, rfl⟩
    | none => exact ⟨_, _, rfl⟩
  obtain ⟨hc, hext⟩ := createOrUseConst_extends hi hcr
  have hx : w.exec F (.const ty v) = .ok (w', [n]) := by
    unfold World.exec
    rw [if_neg (by simp [Cmd.vars])]
    simp only [hcr]
    rfl
  have hp : Proper w (.const ty v) := ⟨⟨trivial, trivial, trivial⟩, trivial⟩
  have hval : Inv w' → ∀ ρ, Sat w' ρ → ρ n = (k, (BitVec.ofNat k v.toNat).toNat) := by
    intro _ ρ hρ
    have := hρ.eqs n hc.live (by rw [hc.op]; simp) (by rw [hc.op]; simp)
    unfold NodeEq at this
    rw [show (w'.view n).op = .CONST from hc.op] at this
    have := this v hc.val
    simp only [patInterp] at this
    rw [this, show (w'.view n).ty = ty from hc.ty, totalBits_width ht, hw, BitVec.toNat_ofNat]
    have hci : constInt ty v = ((v.toNat : Nat) : Int) := by
      unfold constInt
      rw [show ty.isSigned = false from hu]
      rfl
    rw [hci]
    norm_cast
    rw [Int.toNat_natCast, Nat.mod_mod]
  have fin : ∀ {w' : World}, w'.IsConst n ty v → Inv w' → (∀ ρ, Sat w' ρ → ρ n = (k, (BitVec.ofNat k v.toNat).toNat)) →
      Val w' n (fun _ => BitVec.ofNat k v.toNat) ∧ (w'.node n).op = .CONST ∧ (w'.node n).kern = 0 ∧
        (w'.node n).kind = .const v ∧ (w'.node n).ty = ty := by
    intro w' hc hi' hval
    refine ⟨⟨hc.live, .inr hc.op, by rw [hc.op]; simp, by rw [hc.op]; simp, by rw [hc.ty]; exact hw, hval⟩, hc.op, ?_, hc.val, hc.ty⟩
    obtain ⟨g, h1, h2⟩ := hc.live
    rw [(hi'.st.own g h1 n h2).2]
    exact (hi'.st.constTop g h1 n h2 hc.op).2
  obtain ⟨hk, g, hgk, (⟨rfl, -, -⟩ | ⟨-, en, ew⟩)⟩ := createOrUseConst_ok hcr
  · refine ⟨n, w', ?_, hg, .refl _, fin hc hi (hval hi)⟩
    unfold call1; rw [hx]
  · have hlive : ∀ m, w'.Live m ↔ m = w.next ∨ w.Live m := by rw [ew]; exact live_addNode _ _ _ hk
    have hf : ∀ m, w.Live m → FieldsEq (w.node m) (w'.node m) := by
      intro m hm
      rw [ew, addNode_node _ _ _ _ (Nat.ne_of_lt (live_lt hi.st hm))]
      exact .refl _
    have hst : w'.stack = (w.addNode 0 ⟨.CONST, .none, ty, .const v, "", 0, [], []⟩).stack := by rw [ew]
    have st : Step [] w w' := step_of_extends hext hf (by rw [ew]; exact shape_addNode 0 _ rfl) hlive (by rw [ew]; exact Nat.le_succ _)
    have hview : w'.view w.next = ⟨.CONST, .none, ty, .const v, "", []⟩ := by
      rw [ew]; exact (addNode_view hi hk).2.1
    have hg' : Good F Z N w' := by
      refine hg.extend hx hp hlive hext hf ?_ ?_ ?_
      · intro m hm
        obtain ⟨a, -, -, d⟩ := hg.pend m hm
        rw [ew, addNode_node _ _ _ _ (Nat.ne_of_lt (live_lt hi.st a))]
        exact d
      · have hsr : (w'.view w.next).srcs = [] := by rw [hview]; rfl
        refine ⟨fun L => ⟨by rw [hview]; exact ht, ?_⟩, by rw [hview]; exact hu, by rw [hview]; simp, by rw [hview]; simp, by rw [hview]; simp,
          by rw [hsr]; simp, .inl (by rw [hsr]; simp), by rw [hview]; simp, by rw [hview]; simp, by rw [hview]; simp⟩
        rw [show (w'.view w.next).op = .CONST by rw [hview]]
        trivial
      · exact ported_addNode (r := ⟨.CONST, .none, ty, .const v, "", 0, [], []⟩) (by simp) rfl hst hf
          (by show (w'.view w.next).op = _; rw [hview]) hg.ported
    refine ⟨n, w', ?_, hg', st, fin hc hg'.inv (hval hg'.inv)⟩
    unfold call1; rw [hx]

end

end Verif.Kernels
