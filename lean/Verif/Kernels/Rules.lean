import Verif.Kernels.Model
/-
Rules for loops, constants, and kernels with two inputs.
-/
namespace Verif.Kernels
open Verif.Dfcxx Verif.Flow

section
variable {F : FloatOps} {Z : String → Prop} {N : List Nat} {w : World}

/-- A loop: what holds of the state and its value is kept by every iteration. -/
theorem foldB_does {σ α V : Type} {f : σ → α → Build σ} {g : (Nat → Pat) → V → α → V} {R : σ → ((Nat → Pat) → V) → World → Prop} :
    ∀ (l : List α) (s : σ) (t : (Nat → Pat) → V) (w : World), Good F Z N w → R s t w →
      (∀ a ∈ l, ∀ s t w1, Good F Z N w1 → Step [] w w1 → R s t w1 → Does F Z N (f s a) w1 (fun s' w' => R s' (fun ρ => g ρ (t ρ) a) w')) →
      Does F Z N (foldB f l s) w (fun s' w' => R s' (fun ρ => l.foldl (g ρ) (t ρ)) w')
  | [], s, t, w, hg, hr, _ => Does.pure hg hr
  | a :: l, s, t, w, hg, hr, h => by
    unfold foldB
    refine (h a (by simp) s t w hg (.refl w) hr).bind fun s' w1 g1 s1 q1 => ?_
    exact foldB_does l s' _ w1 g1 q1 fun a' ha' s2 t2 w2 g2 s2' r2 => h a' (by simp [ha']) s2 t2 w2 g2 (s1.trans s2') r2

/-- A variable of the kernel under construction that is not a constant. -/
structure Loc {k : Nat} (w : World) (n : Nat) (e : (Nat → Pat) → BitVec k) : Prop where
  val : Val w n e
  here : (w.node n).kern = w.cur
  notConst : (w.node n).op ≠ .CONST

theorem Loc.mono {k : Nat} {ps : List (String × Nat)} {w w' : World} {n : Nat} {e : (Nat → Pat) → BitVec k} (h : Loc w n e)
    (st : Step ps w w') : Loc w' n e := by
  obtain ⟨a, -, -, -, -, b⟩ := st.same n h.val.live h.val.notNone
  exact ⟨h.val.mono st, by rw [b, st.cur]; exact h.here, by rw [a]; exact h.notConst⟩

theorem Str.notConst {k : Nat} (hg : Good F Z N w) {n : Nat} {e : (Nat → Pat) → BitVec k} (h : Str Z w n e) : (w.node n).op ≠ .CONST := by
  intro ho
  have := (hg.inv.st.const n (live_lt hg.inv.st h.val.live)).mp ho
  rw [h.kind] at this
  exact absurd this (by simp [VarKind.isConst])

theorem Str.loc {k : Nat} (hg : Good F Z N w) {n : Nat} {e : (Nat → Pat) → BitVec k} (h : Str Z w n e) : Loc w n e :=
  ⟨h.val, h.here, h.notConst hg⟩

theorem uint_ok {k : Nat} (h0 : 0 < k) (h1 : k < 65536) : TypeOK (uint k) ∧ unsignedTy (uint k) ∧ Flow.width (uint k) = k := by
  refine ⟨⟨?_, ?_, ?_⟩, rfl, ?_⟩ <;> simp [uint, Flow.width] <;> omega

/-! ### Constants -/

/-- Variable `n` is the constant `v`. -/
structure Cst {k : Nat} (w : World) (n : Nat) (v : BitVec k) : Prop where
  val : Val w n (fun _ => v)
  const : (w.node n).op = .CONST
  kern : (w.node n).kern = 0
  raw : ∃ x : Word, (w.node n).kind = .const x ∧ BitVec.ofNat k x.toNat = v
  ty : (w.node n).ty = uint k

theorem Cst.mono {k : Nat} {ps : List (String × Nat)} {w w' : World} {n : Nat} {v : BitVec k} (h : Cst w n v) (st : Step ps w w') :
    Cst w' n v := by
  obtain ⟨a, -, t, kd, -, b⟩ := st.same n h.val.live h.val.notNone
  exact ⟨h.val.mono st, by rw [a]; exact h.const, by rw [b]; exact h.kern, by rw [kd]; exact h.raw, by rw [t]; exact h.ty⟩

theorem ofNat_word {k : Nat} (h1 : k ≤ 64) (v : Nat) : BitVec.ofNat k (BitVec.ofNat 64 v).toNat = BitVec.ofNat k v := by
  apply BitVec.eq_of_toNat_eq
  simp only [BitVec.toNat_ofNat]
  exact Nat.mod_mod_of_dvd _ (Nat.pow_dvd_pow 2 h1)

theorem cst_does (hg : Good F Z N w) {k : Nat} (h0 : 0 < k) (h1 : k ≤ 64) (v : Nat) :
    Does F Z N (cst F k v) w (fun n w' => Cst w' n (BitVec.ofNat k v)) := by
  obtain ⟨a, b, c⟩ := uint_ok h0 (show k < 65536 by omega)
  refine (hg.const (k := k) a b c (BitVec.ofNat 64 v)).weaken fun n w1 _ _ ⟨q1, q2, q3, q4, q5⟩ =>
    ⟨q1.congr fun ρ _ => ofNat_word h1 v, q2, q3, ⟨_, q4, ofNat_word h1 v⟩, q5⟩

/-- The shift of a constant is made at once, on 64 bits; the constant that holds the result is cut to its width later. -/
theorem shlCst_does (hg : Good F Z N w) {k : Nat} (h0 : 0 < k) (h1 : k ≤ 64) {n : Nat} {v : BitVec k} (hc : Cst w n v) {s : Nat} (hs : s < 64) :
    Does F Z N (call1 F (.shift true n s)) w (fun m w' => Cst w' m (v <<< s)) := by
  obtain ⟨x, hx, hv⟩ := hc.raw
  obtain ⟨a, b, c⟩ := uint_ok h0 (show k < 65536 by omega)
  have e : call1 F (.shift true n s) w = call1 F (.const (uint k) (x <<< s)) w := by
    have hlt := live_lt hg.inv.st hc.val.live
    have hu : u8 s = s := by unfold u8; omega
    unfold call1 World.exec
    rw [if_neg (by simp [Cmd.vars, hlt]), if_neg (by simp [Cmd.vars])]
    simp only [hx, hu, evalShl, if_pos hs, if_true, hc.ty]
  have key : BitVec.ofNat k (x <<< s).toNat = v <<< s := by
    rw [← hv, BitVec.ofNat_toNat, BitVec.ofNat_toNat]
    apply BitVec.eq_of_getLsbD_eq
    intro i hi
    have h64 : i < 64 := by omega
    simp [hi, h64]
    rfl
  obtain ⟨m, w', e1, g1, s1, q1, q2, q3, q4, q5⟩ := hg.const (k := k) a b c (x <<< s)
  exact ⟨m, w', e.trans e1, g1, s1, q1.congr fun ρ _ => key, q2, q3, ⟨_, q4, key⟩, q5⟩

theorem consts_does (hg : Good F Z N w) {k : Nat} (h0 : 0 < k) (h1 : k ≤ 64) (l : List Nat) :
    Does F Z N (forEach (cst F k) l) w (fun ns w' => List.Forall₂ (fun v n => Cst w' n (BitVec.ofNat k v)) l ns) :=
  forEach_does (R := fun v n w' => Cst w' n (BitVec.ofNat k v)) (fun _ _ _ _ h st => h.mono st) l w hg
    fun v _ w1 g1 _ => cst_does g1 h0 h1 v

theorem forall₂_flip_map {α β γ : Type} {R : β → γ → Prop} {Q : α → β → Prop} {g : α → γ} (h : ∀ a b, Q a b → R b (g a)) :
    ∀ {l : List α} {m : List β}, List.Forall₂ Q l m → List.Forall₂ R m (l.map g)
  | _, _, .nil => .nil
  | _, _, .cons q t => .cons (h _ _ q) (forall₂_flip_map h t)

theorem muxConsts_does (hg : Good F Z N w) {k j sel : Nat} (h0 : 0 < k) (h1 : k ≤ 64) {x : (Nat → Pat) → BitVec j} (hs : Str Z w sel x)
    (table : List Nat) (hl : 2 ^ j ≤ table.length) :
    Does F Z N (muxConsts F k sel table) w (fun n w' => Str Z w' n (fun ρ => Std.muxC k (x ρ) table)) := by
  unfold muxConsts
  refine (consts_does hg h0 h1 table).bind fun cs w1 g1 s1 q1 => ?_
  have hlen : table.length = cs.length := q1.length_eq
  refine (g1.mux (hs.mono s1) (ys := table.map fun v _ => BitVec.ofNat k v)
    (forall₂_flip_map (g := fun v (_ : Nat → Pat) => BitVec.ofNat k v) (fun v n (q : Cst w1 n (BitVec.ofNat k v)) => q.val) q1)
    (by omega) (.inr fun a ha => ?_)).weaken fun n w2 _ _ q => q.congr fun ρ _ => ?_
  · obtain ⟨v, -, hq⟩ := forall₂_mem_left (R := fun n v => Cst w1 n (BitVec.ofNat k v)) (List.Forall₂.flip q1) a ha
    exact hq.const
  · unfold Std.muxC
    rw [List.map_map]
    rfl

/-- Entry `i` of a list of results. -/
theorem forall₂_getD {α : Type} {R : α → Nat → Prop} {l : List α} {m : List Nat} (h : List.Forall₂ R l m) {i : Nat} (hi : i < l.length) :
    R l[i] (m.getD i 0) := by
  induction h generalizing i with
  | nil => simp at hi
  | cons r t ih =>
    cases i with
    | zero => exact r
    | succ i => exact ih (by simpa using hi)

/-! ### Kernels with two inputs -/

/-- The value at the `i`-th port. -/
def arg (k : Nat) (l : List Pat) (i : Nat) : BitVec k := BitVec.ofNat k (l.getD i (0, 0)).2

theorem headNames_step {ps : List (String × Nat)} {w w' : World} (hi : Inv w) (st : Step ps w w') : headNames w' = ps ++ headNames w := by
  obtain ⟨S, rest, h1, -, -⟩ := stack_head hi
  unfold headNames
  rw [st.shape]
  unfold shape
  rw [h1]
  rfl

/-- A variable made by `io.input`. -/
structure Port {k : Nat} (w : World) (n : Nat) (name : String) (e : (Nat → Pat) → BitVec k) : Prop where
  loc : Loc w n e
  kind : (w.node n).kind = .stream
  isIn : (w.node n).op = .IN
  name : (w.node n).name = name

theorem Port.mono {k : Nat} {ps : List (String × Nat)} {w w' : World} {n : Nat} {name : String} {e : (Nat → Pat) → BitVec k}
    (h : Port w n name e) (st : Step ps w w') : Port w' n name e := by
  obtain ⟨a, -, -, kd, nm, -⟩ := st.same n h.loc.val.live h.loc.val.notNone
  exact ⟨h.loc.mono st, by rw [kd]; exact h.kind, by rw [a]; exact h.isIn, by rw [nm]; exact h.name⟩

theorem Port.str {k : Nat} {n : Nat} {name : String} {e : (Nat → Pat) → BitVec k} (h : Port w n name e) (hz : ¬ Z name) : Str Z w n e :=
  ⟨h.loc.val, h.loc.here, h.kind, fun _ => by rw [h.name]; exact hz⟩

theorem input_does (hg : Good F Z N w) {k : Nat} (h0 : 0 < k) (h1 : k < 65536) {name : String} (hn : name ≠ "")
    (hfresh : ∀ p ∈ headNames w, p.1 ≠ name) :
    ∃ n w', call1 F (.input false name (uint k)) w = .ok (n, w') ∧ Good F Z N w' ∧ Step [(name, n)] w w' ∧
      Port w' n name (fun ρ => BitVec.ofNat k (ρ n).2) := by
  obtain ⟨a, b, c⟩ := uint_ok h0 h1
  obtain ⟨n, w', e1, e2, e3, e4, e5, e6, e7, e8⟩ := hg.input (k := k) a b c hn hfresh
  exact ⟨n, w', e1, e2, e3, ⟨e4, e5, by rw [e6]; simp⟩, e7, e6, e8⟩

/-- A kernel: two inputs, some code, an output, the last expression. -/
theorem two_in_contract {C : World → Prop} {σ : Type} {a b out : String} {ka kb k : Nat} {body : Nat → Nat → Build σ} {fin : σ → Build Nat}
    {f : BitVec ka → BitVec kb → BitVec k} (Q : Nat → Nat → σ → World → Prop)
    (hna : a ≠ "") (hnb : b ≠ "") (hno : out ≠ "") (hnd : [out, a, b].Nodup)
    (hka : 0 < ka ∧ ka < 65536) (hkb : 0 < kb ∧ kb < 65536) (hk : 0 < k ∧ k < 65536)
    (hCs : ∀ ps w w', Step ps w w' → C w → C w') (hQs : ∀ x y r ps w w', Step ps w w' → Q x y r w → Q x y r w')
    (hbody : ∀ N w x y, Good F Z N w → C w → Port w x a (fun ρ => BitVec.ofNat ka (ρ x).2) → Port w y b (fun ρ => BitVec.ofNat kb (ρ y).2) →
      Does F Z N (body x y) w (Q x y))
    (hfin : ∀ N w x y r, Good F Z N w → C w → Q x y r w →
      Does F Z N (fin r) w (fun s w' => Str Z w' s (fun ρ => f (BitVec.ofNat ka (ρ x).2) (BitVec.ofNat kb (ρ y).2)))) :
    Contract F Z C (do
      let x ← call1 F (.input false a (uint ka))
      let y ← call1 F (.input false b (uint kb))
      let r ← body x y
      let o ← call1 F (.output false out (uint k))
      let s ← fin r
      let _ ← call F (.connect o s)
      pure ()) [(a, ka), (b, kb)] out k (fun l => f (arg ka l 0) (arg kb l 1)) := by
  simp only [List.nodup_cons, List.mem_cons, List.not_mem_nil, or_false, not_or, not_false_eq_true, List.nodup_nil, and_true] at hnd
  obtain ⟨⟨hoa, hob⟩, hab⟩ := hnd
  refine ⟨by simp [hoa, hob, hab], fun N w hg hh hC => ?_⟩
  obtain ⟨x, w1, e1, g1, s1, p1⟩ := input_does hg hka.1 hka.2 hna (by rw [hh]; simp)
  have hh1 : headNames w1 = [(a, x)] := by rw [headNames_step hg.inv s1, hh]; rfl
  obtain ⟨y, w2, e2, g2, s2, p2⟩ := input_does g1 hkb.1 hkb.2 hnb (by rw [hh1]; simpa using hab)
  have hh2 : headNames w2 = [(b, y), (a, x)] := by rw [headNames_step g1.inv s2, hh1]; rfl
  have hC2 := hCs _ _ _ s2 (hCs _ _ _ s1 hC)
  obtain ⟨r, w3, e3, g3, s3, q3⟩ := hbody N w2 x y g2 hC2 (p1.mono s2) p2
  have hh3 : headNames w3 = [(b, y), (a, x)] := by rw [headNames_step g2.inv s3, hh2]; rfl
  obtain ⟨t1, t2, t3⟩ := uint_ok hk.1 hk.2
  obtain ⟨o, w4, e4, no, g4, s4, l4, o4, k4, ty4⟩ := g3.output t1 t2 hno (by
    rw [hh3]; simp only [List.mem_cons, List.not_mem_nil, or_false]
    rintro p (rfl | rfl)
    · exact fun e => hob e.symm
    · exact fun e => hoa e.symm)
  have hC4 := hCs _ _ _ s4 (hCs _ _ _ s3 hC2)
  obtain ⟨s, w5, e5, g5, s5, q5⟩ := hfin (o :: N) w4 x y r g4 hC4 (hQs _ _ _ _ _ _ s4 q3)
  obtain ⟨f1, -, f3, -, -, f6⟩ := s5.same o l4 (by rw [o4]; simp)
  obtain ⟨w6, e6, g6, s6, i6, l6, fe6⟩ := g5.connect no (f1.trans o4) (by rw [f6, k4, s5.cur]) (by rw [f3, ty4]; exact t3) q5.val
  have p1' := (p1.mono s2).mono s3 |>.mono s4 |>.mono s5 |>.mono s6
  have p2' := p2.mono s3 |>.mono s4 |>.mono s5 |>.mono s6
  refine ⟨w6, _, [x, y], o, s, ?_, g6, ((((s1.trans s2).trans s3).trans s4).trans s5).trans s6, ?_, ?_, ?_, ?_, i6, ?_⟩
  · rw [build_bind e1, build_bind e2, build_bind e3, build_bind e4, build_bind e5, build_bind e6]
    rfl
  · have n1 : (a == out) = false := by simpa using fun e => hoa e.symm
    have n2 : (b == out) = false := by simpa using fun e => hob e.symm
    have n3 : (a == b) = false := by simpa using hab
    refine .cons ⟨?_, p1'.isIn, p1'.loc.val.width, p1'.kind⟩ (.cons ⟨?_, p2'.isIn, p2'.loc.val.width, p2'.kind⟩ .nil)
    · simp [List.lookup, n1, n3]
    · simp [List.lookup, n2]
  · intro q hq
    simp only [List.nil_append, List.cons_append, List.append_nil, List.mem_cons, List.not_mem_nil, or_false] at hq
    rcases hq with rfl | rfl | rfl <;> simp
  · simp [List.lookup]
  · rw [fe6.1, f1, o4]
  · exact q5.mono s6

/-! ### Concatenation in a loop -/

/-- A value of some width. -/
abbrev AnyW := Σ k : Nat, ((Nat → Pat) → BitVec k)

def AnyW.app {m : Nat} (p : AnyW) (v : (Nat → Pat) → BitVec m) : AnyW := ⟨p.1 + m, fun ρ => p.2 ρ ++ v ρ⟩

theorem catLoop_does {α : Type} {m : Nat} {f : α → Build Nat} {v : α → (Nat → Pat) → BitVec m} :
    ∀ (l : List α) (s : Nat) (p : AnyW) (w : World), Good F Z N w → Str Z w s p.2 → p.1 + m * l.length < 65536 →
      (∀ a ∈ l, ∀ w1, Good F Z N w1 → Step [] w w1 → Does F Z N (f a) w1 (fun n w' => Str Z w' n (v a))) →
      Does F Z N (foldB (fun s a => do
        let b ← f a
        call1 F (.cat s b)) l s) w (fun n w' => Str Z w' n (l.foldl (fun p a => p.app (v a)) p).2)
  | [], s, p, w, hg, hs, _, _ => Does.pure hg hs
  | a :: l, s, p, w, hg, hs, hl, h => by
    have hl' : p.1 + m + m * l.length < 65536 := by
      have := hl
      rw [List.length_cons, Nat.mul_succ] at this
      omega
    unfold foldB
    refine Does.bind (Q := fun n w' => Str Z w' n (p.app (v a)).2) ?_ fun s1 w1 g1 s1' q1 =>
      catLoop_does l s1 (p.app (v a)) w1 g1 q1 hl' fun a' ha' w2 g2 s2 => h a' (by simp [ha']) w2 g2 (s1'.trans s2)
    refine (h a (by simp) w hg (.refl w)).bind fun b w1 g1 s1 q1 => ?_
    exact g1.cat (hs.mono s1).val q1.val (hs.mono s1).here (by omega)

end

end Verif.Kernels
