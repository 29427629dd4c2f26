import Verif.Vlog.LibSpec
import Verif.Vlog.Whole
import Verif.Vlog.Exist
import Verif.Vlog.Legality
/-
The modules of the library do what the model of the instances says.
-/
namespace Verif.Vlog
open Verif.Hw Verif.Flow

theorem isSigned_eq (ty : FTy) : FTy.isSigned ty = ftySigned ty := by cases ty <;> rfl

/-- The modules a kernel's circuit has: nothing empty, nothing beyond the range of `integer`, as many arguments as the template has, and a buffer's
input is as wide as its output. -/
structure Fit (m : Module) : Prop extends LibOK m where
  res' : m.res.width ≤ 2 ^ 31
  args' : ∀ t ∈ m.args, t.width ≤ 2 ^ 31
  fifoArgs : stubOf m.name = some .fifo → m.args = [m.res]
  castArgs : stubOf m.name = some .cast → ∃ ta, m.args = [ta]
  binArgs : ∀ op, stubOf m.name = some (.binary op) → ∃ ta tb, m.args = [ta, tb]

theorem port_toNat {ty : FTy} {x : Nat → FVal} {t : Nat} {z : FVal} (h : conn ty (x t) = some z) : (portStream ty x t).toNat = z.n % 2 ^ ty.width := by
  unfold portStream
  rw [h, Option.getD_some, BitVec.toNat_ofNat]

theorem wired_one {ρ : Nat → Store} {ty : FTy} {n : String} {ns : List String} {xs : List (Nat → FVal)} :
    Wired ρ [ty] (n :: ns) xs ↔ ∃ x, xs = [x] ∧ (∀ t, (conn ty (x t)).isSome) ∧ ∀ t, (ρ t).vec n = (portStream ty x t).toNat := by
  match xs with
  | [] => simp [Wired]
  | [x] =>
    simp only [Wired, and_true, List.cons.injEq]
    constructor
    · intro h
      refine ⟨x, rfl, fun t => ?_, fun t => ?_⟩
      · obtain ⟨z, hz, _⟩ := h t; rw [hz]; rfl
      · obtain ⟨z, hz, e⟩ := h t; rw [port_toNat hz, e]
    · rintro ⟨x', rfl, hs, hv⟩ t
      obtain ⟨z, hz⟩ := Option.isSome_iff_exists.mp (hs t)
      exact ⟨z, hz, by rw [hv t, port_toNat hz]⟩
  | x :: y :: l => simp [Wired]

theorem wired_two {ρ : Nat → Store} {ta tb : FTy} {n n' : String} {ns : List String} {xs : List (Nat → FVal)} :
    Wired ρ [ta, tb] (n :: n' :: ns) xs ↔ ∃ x y, xs = [x, y] ∧ (∀ t, (conn ta (x t)).isSome) ∧ (∀ t, (conn tb (y t)).isSome) ∧
      (∀ t, (ρ t).vec n = (portStream ta x t).toNat) ∧ ∀ t, (ρ t).vec n' = (portStream tb y t).toNat := by
  cases xs with
  | nil => simp [Wired]
  | cons x xs =>
    have e : Wired ρ [ta, tb] (n :: n' :: ns) (x :: xs) ↔ Wired ρ [ta] [n] [x] ∧ Wired ρ [tb] (n' :: ns) xs := by simp [Wired]
    rw [e, wired_one, wired_one]
    constructor
    · rintro ⟨⟨x', e', h1, h2⟩, y, rfl, h3, h4⟩
      cases e'
      exact ⟨x, y, rfl, h1, h3, h2, h4⟩
    · rintro ⟨x', y, e', h1, h3, h2, h4⟩
      cases e'
      exact ⟨⟨x, rfl, h1, h2⟩, y, rfl, h3, h4⟩

theorem ports_one (x : String) (i : List Item) (w1 w3 : Nat) (h1 : 0 < w1) (h3 : 0 < w3) {m : Module} {ta : FTy} (hm : m.args = [ta]) (ha : ta.width = w1)
    (hr : m.res.width = w3) :
    ((Mod.mk x [⟨false, false, w1 - 1 + 1, "arg1"⟩, ⟨true, false, w3 - 1 + 1, "res1"⟩, ⟨false, false, 1, "clk"⟩] i).ports.map
      fun p => (p.name, p.output, p.width)).Perm (extPorts m) := by
  have e1 : w1 - 1 + 1 = w1 := by omega
  have e3 : w3 - 1 + 1 = w3 := by omega
  simp only [extPorts, hm, argNames, List.zip_cons_cons, List.zip_nil_right, List.map_cons, List.map_nil, ha, hr, e1, e3, List.cons_append, List.nil_append]
  exact List.Perm.swap _ _ _

theorem ports_two (x : String) (i : List Item) (s1 s2 s3 : Bool) (op : VOp) (w1 w2 w3 : Nat) (h1 : 0 < w1) (h2 : 0 < w2) (h3 : 0 < w3) {m : Module}
    {ta tb : FTy} (hm : m.args = [ta, tb]) (ha : ta.width = w1) (hb : tb.width = w2) (hr : m.res.width = w3) :
    ((Mod.mk x (binPorts s1 s2 s3 (widthsOf op w1 w2 w3)) i).ports.map fun p => (p.name, p.output, p.width)).Perm (extPorts m) := by
  have e1 : w1 - 1 + 1 = w1 := by omega
  have e2 : w2 - 1 + 1 = w2 := by omega
  have e3 : w3 - 1 + 1 = w3 := by omega
  simp only [extPorts, hm, argNames, List.zip_cons_cons, List.zip_nil_right, List.map_cons, List.map_nil, ha, hb, hr, e1, e2, e3, binPorts, widthsOf,
    List.cons_append, List.nil_append]
  exact ((List.Perm.swap _ _ _).cons _).trans (List.Perm.swap _ _ _)

theorem r0_eq {w : Nat} {ρ : Nat → Store} {reg : Nat → Nat} (h : ∀ i, (ρ 0).mem "r" i = (BitVec.ofNat w (reg i)).toNat) :
    (fun i => BitVec.ofNat w ((ρ 0).mem "r" i)) = fun i => BitVec.ofNat w (reg i) := by
  funext i
  rw [h i, BitVec.ofNat_toNat, BitVec.setWidth_eq]

theorem ite_eq_some_iff' {α : Type} {p : Prop} [Decidable p] {a b : α} : (if p then some a else none) = some b ↔ p ∧ a = b := by
  by_cases h : p <;> simp [h]

theorem ite_eq_some_iff2 {α : Type} {p : Prop} [Decidable p] {a : Option α} {b : α} : (if p then a else none) = some b ↔ p ∧ a = some b := by
  by_cases h : p <;> simp [h]

/-- An instance behaves as the module read from the library's text. -/
theorem inst_iff {m : Module} (h : Fit m) (xs : List (Nat → FVal)) (y : Nat → FVal) :
    (∃ a, astOf m = some a ∧ InstRun a m xs y) ↔ ∃ reg, ∀ t, instOut m reg xs t = some (y t) := by
  have hlat := h.latency
  have hres := h.res
  have hres' := h.res'
  cases hs : stubOf m.name with
  | none =>
    have e : astOf m = none := by unfold astOf; rw [hs]
    have e' : ∀ reg t, instOut m reg xs t = none := by intro reg t; unfold instOut; rw [hs]
    constructor
    · rintro ⟨a, ha, _⟩; rw [e] at ha; cases ha
    · rintro ⟨reg, hr⟩; have := hr 0; rw [e'] at this; cases this
  | some st =>
    cases st with
    | fifo =>
      have hL := h.fifo hs
      have hargs := h.fifoArgs hs
      have e : astOf m = some (fifoMod (String.ofList m.name) (m.res.width - 1) (m.latency - 1)) := by unfold astOf; rw [hs]; simp only [hL, if_false]
      constructor
      · rintro ⟨a, ha, -, -, ρ, hρ, hw, hy⟩
        rw [e] at ha
        cases ha
        rw [hargs, argNames, wired_one] at hw
        obtain ⟨x, rfl, hc, hv⟩ := hw
        refine ⟨fun i => (ρ 0).mem "r" i, fun t => ?_⟩
        unfold instOut
        rw [hs, hargs]
        simp only [hc t, if_true, hy t]
        rw [fifo_run hres hL hlat hρ hv t]
      · rintro ⟨reg, hr⟩
        match xs, hr with
        | [x], hr =>
          unfold instOut at hr
          rw [hs, hargs] at hr
          simp only [ite_eq_some_iff'] at hr
          obtain ⟨ρ, hρ, ha, hm⟩ := fifo_exists (String.ofList m.name) hres hlat (portStream m.res x) (fun i => BitVec.ofNat _ (reg i))
          refine ⟨_, e, fifo_legal _ (by omega), ports_one _ _ _ _ hres hres hargs rfl rfl, ρ, hρ, ?_, fun t => ?_⟩
          · rw [hargs, argNames, wired_one]
            exact ⟨x, rfl, fun t => (hr t).1, ha⟩
          · rw [fifo_run hres hL hlat hρ ha t, r0_eq hm, (hr t).2]
        | [], hr => have := hr 0; unfold instOut at this; rw [hs, hargs] at this; cases this
        | _ :: _ :: _, hr => have := hr 0; unfold instOut at this; rw [hs, hargs] at this; cases this
    | cast =>
      obtain ⟨ta, hargs⟩ := h.castArgs hs
      have h1 := h.args ta (by rw [hargs]; exact List.mem_cons_self)
      have h1' := h.args' ta (by rw [hargs]; exact List.mem_cons_self)
      have e : astOf m = some (if m.latency = 0
          then combCastMod (String.ofList m.name) (ta.width - 1) (m.res.width - 1) (m.res.width - ta.width) (max m.res.width ta.width - 1) (ftySigned m.res)
          else castMod (String.ofList m.name) (ta.width - 1) (m.res.width - 1) (m.res.width - ta.width) (max m.res.width ta.width - 1) (m.latency - 1)
            (ftySigned m.res)) := by
        unfold astOf
        rw [hs, hargs]
        simp only [isSigned_eq]
      constructor
      · rintro ⟨a, ha, -, -, ρ, hρ, hw, hy⟩
        rw [e] at ha
        have ha := Option.some.inj ha
        subst ha
        rw [hargs, argNames, wired_one] at hw
        obtain ⟨x, rfl, hc, hv⟩ := hw
        refine ⟨fun i => (ρ 0).mem "r" i, fun t => ?_⟩
        unfold instOut
        rw [hs, hargs]
        simp only [hc t, if_true, hy t, castModule]
        by_cases hL : m.latency = 0
        · rw [if_pos hL] at hρ
          rw [combCast_run h1 hres h1' hρ hv t, if_neg (not_not.mpr hL)]
        · rw [if_neg hL] at hρ
          rw [cast_run h1 hres h1' hlat hρ hv t, if_pos hL]
      · rintro ⟨reg, hr⟩
        match xs, hr with
        | [x], hr =>
          unfold instOut at hr
          rw [hs, hargs] at hr
          simp only [ite_eq_some_iff', castModule] at hr
          by_cases hL : m.latency = 0
          · obtain ⟨ρ, hρ, ha, hm⟩ := combCast_exists (String.ofList m.name) (ftySigned m.res) h1 hres h1' (portStream ta x) (fun i => BitVec.ofNat _ (reg i))
            refine ⟨_, e.trans (by rw [if_pos hL]), combCast_legal _ _ (by omega) (by omega), ports_one _ _ _ _ h1 hres hargs rfl rfl, ρ, hρ, ?_,
              fun t => ?_⟩
            · rw [hargs, argNames, wired_one]
              exact ⟨x, rfl, fun t => (hr t).1, ha⟩
            · rw [combCast_run h1 hres h1' hρ ha t, ← (hr t).2, if_neg (not_not.mpr hL)]
          · obtain ⟨ρ, hρ, ha, hm⟩ := cast_exists (String.ofList m.name) (ftySigned m.res) h1 hres h1' hlat (portStream ta x) (fun i => BitVec.ofNat _ (reg i))
            refine ⟨_, e.trans (by rw [if_neg hL]), cast_legal _ _ (by omega) (by omega) (by omega), ports_one _ _ _ _ h1 hres hargs rfl rfl, ρ, hρ, ?_,
              fun t => ?_⟩
            · rw [hargs, argNames, wired_one]
              exact ⟨x, rfl, fun t => (hr t).1, ha⟩
            · rw [cast_run h1 hres h1' hlat hρ ha t, r0_eq hm, ← (hr t).2, if_pos hL]
        | [], hr => have := hr 0; unfold instOut at this; rw [hs, hargs] at this; cases this
        | _ :: _ :: _, hr => have := hr 0; unfold instOut at this; rw [hs, hargs] at this; cases this
    | binary op =>
      obtain ⟨ta, tb, hargs⟩ := h.binArgs op hs
      have h1 := h.args ta (by rw [hargs]; simp)
      have h1' := h.args' ta (by rw [hargs]; simp)
      have h2 := h.args tb (by rw [hargs]; simp)
      have h2' := h.args' tb (by rw [hargs]; simp)
      have e : astOf m = some (if m.latency = 0
          then combBinaryMod (String.ofList m.name) op (ftySigned ta) (ftySigned tb) (ftySigned m.res) (widthsOf op ta.width tb.width m.res.width)
          else binaryMod (String.ofList m.name) op (ftySigned ta) (ftySigned tb) (ftySigned m.res) (widthsOf op ta.width tb.width m.res.width)
            (m.latency - 1)) := by
        unfold astOf
        rw [hs, hargs]
        simp only [isSigned_eq]
      have hrl := rWidth_le op h1' h2'
      constructor
      · rintro ⟨a, ha, hleg, -, ρ, hρ, hw, hy⟩
        rw [e] at ha
        have ha := Option.some.inj ha
        subst ha
        rw [hargs, argNames, wired_two] at hw
        obtain ⟨x, y', rfl, hc, hc', hv, hv'⟩ := hw
        refine ⟨fun i => (ρ 0).mem "r" i, fun t => ?_⟩
        unfold instOut
        rw [hs, hargs]
        simp only [hc t, hc' t, and_self, if_true, hy t, binaryModule]
        by_cases hL : m.latency = 0
        · rw [if_pos hL] at hρ hleg
          rw [if_neg (not_not.mpr hL)]
          cases hsg : ftySigned m.res with
          | true => rw [hsg] at hleg; exact absurd hleg (combBinary_illegal _ _ _ _ _)
          | false =>
            rw [hsg] at hρ
            have := combBinary_run h1 h2 hres h1' h2' hρ hv hv' t
            obtain ⟨r, hr, hr'⟩ := Option.map_eq_some_iff.mp this.symm
            rw [hr, Option.map_some, hr']
        · rw [if_neg hL] at hρ
          rw [binary_run h1 h2 hres h1' h2' hlat hρ hv hv' t, if_pos hL, Option.map_some]
      · rintro ⟨reg, hr⟩
        match xs, hr with
        | [x, y'], hr =>
          unfold instOut at hr
          rw [hs, hargs] at hr
          simp only [ite_eq_some_iff2, binaryModule] at hr
          by_cases hL : m.latency = 0
          · cases hsg : ftySigned m.res with
            | true =>
              have := (hr 0).2
              rw [if_neg (not_not.mpr hL), hsg] at this
              simp [combBinary] at this
            | false =>
              obtain ⟨ρ, hρ, ha, hb, hm⟩ := combBinary_exists (String.ofList m.name) op (ftySigned ta) (ftySigned tb) h1 h2 hres h1' h2' (portStream ta x)
                (portStream tb y') (fun i => BitVec.ofNat _ (reg i))
              refine ⟨_, e.trans (by rw [if_pos hL, hsg]), combBinary_legal _ _ _ _ ?_ ?_ ?_, ports_two _ _ _ _ _ _ _ _ _ h1 h2 hres hargs rfl rfl rfl,
                ρ, hρ, ?_, fun t => ?_⟩
              · simp only [widthsOf]; omega
              · simp only [widthsOf]; omega
              · simp only [widthsOf]; omega
              · rw [hargs, argNames, wired_two]
                exact ⟨x, y', rfl, fun t => (hr t).1.1, fun t => (hr t).1.2, ha, hb⟩
              · have := combBinary_run h1 h2 hres h1' h2' hρ ha hb t
                have h3 := (hr t).2
                rw [if_neg (not_not.mpr hL), hsg] at h3
                obtain ⟨r, hr, hr'⟩ := Option.map_eq_some_iff.mp this.symm
                rw [hr, Option.map_some] at h3
                rw [← Option.some.inj h3, hr']
          · obtain ⟨ρ, hρ, ha, hb, hm⟩ := binary_exists (String.ofList m.name) op (ftySigned ta) (ftySigned tb) (ftySigned m.res) h1 h2 hres h1' h2' hlat
              (portStream ta x) (portStream tb y') (fun i => BitVec.ofNat _ (reg i))
            refine ⟨_, e.trans (by rw [if_neg hL]), binary_legal _ _ _ _ _ ?_ ?_ ?_ (by omega) ?_, ports_two _ _ _ _ _ _ _ _ _ h1 h2 hres hargs rfl rfl rfl,
              ρ, hρ, ?_, fun t => ?_⟩
            · simp only [widthsOf]; omega
            · simp only [widthsOf]; omega
            · simp only [widthsOf, opWidth_rWidth]; omega
            · simp only [widthsOf]; omega
            · rw [hargs, argNames, wired_two]
              exact ⟨x, y', rfl, fun t => (hr t).1.1, fun t => (hr t).1.2, ha, hb⟩
            · have h3 := (hr t).2
              rw [if_pos hL, Option.map_some] at h3
              rw [binary_run h1 h2 hres h1' h2' hlat hρ ha hb t, r0_eq hm, ← Option.some.inj h3]
        | [], hr => have := hr 0; unfold instOut at this; rw [hs, hargs] at this; cases this
        | [_], hr => have := hr 0; unfold instOut at this; rw [hs, hargs] at this; cases this
        | _ :: _ :: _ :: _, hr => have := hr 0; unfold instOut at this; rw [hs, hargs] at this; cases this

end Verif.Vlog
