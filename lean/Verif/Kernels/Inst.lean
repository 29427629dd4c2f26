import Verif.Kernels.Bind
/-
Instances: code of a kernel inside another kernel computes the same function there.
-/
namespace Verif.Kernels
open Verif.Dfcxx Verif.Flow

/-- `Kernel::instance` (kernel.h:78-93): construct the kernel, then bind its ports; the result is what the bound variables refer to
afterwards. -/
def inst (F : FloatOps) (p : Build Unit) (bs : List (Nat × String)) : Build (List Nat) := do
  let _ ← call F .beginInst
  p
  call F (.endInst bs)

/-- The constructor `p` of a kernel with the stream inputs `ins` (names and widths) and one stream output: started in an empty kernel, it
succeeds, and the stream it connects to the output has the value `f` of the values of the inputs.  `C`: what it needs of the state. -/
structure Contract (F : FloatOps) (Z : String → Prop) (C : World → Prop) (p : Build Unit) (ins : List (String × Nat)) (out : String) (k : Nat)
    (f : List Pat → BitVec k) : Prop where
  nodup : (out :: ins.map Prod.fst).Nodup
  run : ∀ N w, Good F Z N w → headNames w = [] → C w → ∃ w' ps ns o s, p w = .ok ((), w') ∧ Good F Z N w' ∧ Step ps w w' ∧
    List.Forall₂ (fun i n => ps.lookup i.1 = some n ∧ (w'.node n).op = .IN ∧ Flow.width (w'.node n).ty = i.2 ∧ (w'.node n).kind = .stream) ins ns ∧
    (∀ q ∈ ps, q.1 = out ∨ q.1 ∈ ins.map Prod.fst) ∧ ps.lookup out = some o ∧ (w'.node o).op = .OUT ∧ (w'.view o).ins = [(s, true)] ∧
    Str Z w' s (fun ρ => f (ns.map ρ))

/-- What may be bound to an input. -/
structure Arg (Z : String → Prop) (w : World) (i : String × Nat) (a : Nat) : Prop where
  live : w.Live a
  here : (w.node a).kern = w.cur
  notOut : (w.node a).op ≠ .OUT
  notNone : (w.node a).op ≠ .NONE
  width : Flow.width (w.node a).ty = i.2
  val : ∀ ρ, Sat w ρ → (ρ a).1 = i.2 ∧ (ρ a).2 < 2 ^ i.2
  kind : Z i.1 ∨ ((w.node a).kind = .stream ∧ ((w.node a).op = .IN → ¬ Z (w.node a).name))

section
variable {F : FloatOps} {Z : String → Prop} {N : List Nat} {w : World}

theorem Str.arg {k : Nat} {n : Nat} {e : (Nat → Pat) → BitVec k} (h : Str Z w n e) (name : String) : Arg Z w (name, k) n :=
  ⟨h.val.live, h.here, h.val.notOut, h.val.notNone, h.val.width, fun ρ hs => by rw [h.val.val ρ hs]; exact ⟨rfl, (e ρ).isLt⟩, .inr ⟨h.kind, h.sel⟩⟩

theorem Val.arg {k : Nat} {n : Nat} {e : (Nat → Pat) → BitVec k} (h : Val w n e) (hk : (w.node n).kern = w.cur) {name : String} (hz : Z name) :
    Arg Z w (name, k) n :=
  ⟨h.live, hk, h.notOut, h.notNone, h.width, fun ρ hs => by rw [h.val ρ hs]; exact ⟨rfl, (e ρ).isLt⟩, .inl hz⟩

/-- The state in which the constructor of an instance starts. -/
def begun (w : World) : World := { w with nextK := w.nextK + 1, stack := ⟨w.nextK, [], [], []⟩ :: w.stack }

theorem begun_live (m : Nat) : (begun w).Live m ↔ w.Live m := by
  unfold World.Live begun
  simp

theorem exec_begin : w.exec F .beginInst = .ok (begun w, []) := by
  unfold World.exec
  rw [if_neg (by simp [Cmd.vars])]
  rfl

theorem Good.begin (hg : Good F Z N w) : Good F Z N (begun w) := by
  refine ⟨.snoc .beginInst hg.hist ⟨⟨trivial, trivial, trivial⟩, trivial⟩ exec_begin, ?_, ?_, ?_⟩
  · intro n hl hN
    exact hg.ok n ((begun_live n).mp hl) hN
  · intro n hn
    obtain ⟨a, b⟩ := hg.pend n hn
    exact ⟨(begun_live n).mpr a, b⟩
  · intro g hg' n hn ho
    rcases List.mem_cons.mp hg' with rfl | hg'
    · cases hn
    · exact hg.ported g hg' n hn ho

theorem forall₂_mem_left {α β : Type} {R : α → β → Prop} : ∀ {l : List α} {m : List β}, List.Forall₂ R l m → ∀ a ∈ l, ∃ b ∈ m, R a b
  | _, _, .nil, _, h => by cases h
  | _, _, .cons (b := b) r t, a, h => by
    rcases List.mem_cons.mp h with rfl | h
    · exact ⟨b, by simp, r⟩
    · obtain ⟨b', h1, h2⟩ := forall₂_mem_left t a h
      exact ⟨b', by simp [h1], h2⟩

theorem forall₂_last {α β : Type} {R : α → β → Prop} {a : α} {b : β} : ∀ {l : List α} {m : List β}, l.length = m.length →
    List.Forall₂ R (l ++ [a]) (m ++ [b]) → R a b
  | [], [], _, h => by cases h with | cons h _ => exact h
  | _ :: l, _ :: m, hl, h => by cases h with | cons _ h => exact forall₂_last (by simpa using hl) h

theorem build_bind {α β : Type} {p : Build α} {f : α → Build β} {w w' : World} {a : α} (h : p w = .ok (a, w')) : (p >>= f) w = f a w' := by
  show StateT.bind p f w = _
  unfold StateT.bind
  rw [h]
  rfl

/-- The bindings of inputs, one by one. -/
theorem zip_bindings {R : String × Nat → Nat → Prop} {Q : String × Nat → Nat → Prop} : ∀ {ins : List (String × Nat)} {args ns : List Nat},
    List.Forall₂ R ins args → List.Forall₂ Q ins ns →
    (∀ b ∈ args.zip (ins.map Prod.fst), ∃ i ∈ ins, ∃ n, i.1 = b.2 ∧ R i b.1 ∧ Q i n) ∧
    (args.zip (ins.map Prod.fst)).map Prod.snd = ins.map Prod.fst ∧ (args.zip (ins.map Prod.fst)).map Prod.fst = args
  | _, _, _, .nil, .nil => by simp
  | _, _, _, .cons (a := i) (b := a) r t, .cons (b := n) q u => by
    obtain ⟨h1, h2, h3⟩ := zip_bindings t u
    refine ⟨?_, ?_, ?_⟩
    · intro b hb
      simp only [List.map_cons, List.zip_cons_cons, List.mem_cons] at hb
      rcases hb with rfl | hb
      · exact ⟨i, by simp, n, rfl, r, q⟩
      · obtain ⟨i', a1, n', a2⟩ := h1 b hb
        exact ⟨i', by simp [a1], n', a2⟩
    · simp [h2]
    · simp [h3]

/-- The values of the inputs are those of the bound streams. -/
theorem bound_values {ρ : Nat → Pat} {names : List (String × Nat)} {Q : String × Nat → Nat → Prop} : ∀ {ins : List (String × Nat)} {args ns : List Nat},
    args.length = ins.length → List.Forall₂ (fun i n => names.lookup i.1 = some n ∧ Q i n) ins ns →
    (∀ b ∈ args.zip (ins.map Prod.fst), ∀ n, names.lookup b.2 = some n → ρ b.1 = ρ n) → ns.map ρ = args.map ρ
  | _, [], _, hl, .nil, _ => rfl
  | _, a :: args, _, hl, .nil, _ => by simp at hl
  | _, [], _, hl, .cons _ _, _ => by simp at hl
  | _, a :: args, _, hl, .cons (b := n) q u, h => by
    simp only [List.map_cons]
    rw [bound_values (args := args) (by simpa using hl) u (fun b hb => h b (by simp [hb]))]
    rw [h (a, _) (by simp) n q.1]

/-- **The instance rule.** -/
theorem Contract.inst {C : World → Prop} {p : Build Unit} {ins : List (String × Nat)} {out : String} {k v : Nat} {f : List Pat → BitVec k}
    (hc : Contract F Z C p ins out k f) (hg : Good F Z (v :: N) w) (hvN : v ∉ N) (hvn : (w.node v).op = .NONE) (hvk : (w.node v).kern = w.cur)
    {args : List Nat} (ha : List.Forall₂ (Arg Z w) ins args) (hC : C (begun w)) :
    ∃ h w', inst F p (args.zip (ins.map Prod.fst) ++ [(v, out)]) w = .ok (args ++ [h], w') ∧ Good F Z N w' ∧ Step [] w w' ∧
      Str Z w' h (fun ρ => f (args.map ρ)) := by
  have hi := hg.inv
  obtain ⟨w1, ps, ns, o, s, hp, hg1, st1, hin, hnames, hlo, hoo, hos, hs⟩ := hc.run _ _ hg.begin rfl hC
  have hi1 := hg1.inv
  -- the kernels
  obtain ⟨K0, rest0, hst0, hK0, -⟩ := stack_head hi
  have hsh : shape w1 = (w.nextK, ps) :: shape w := by
    rw [st1.shape]
    show (w.nextK, ps ++ []) :: _ = _
    rw [List.append_nil]
    rfl
  obtain ⟨S, K, rest, hst1, hSid, hSn, hKid, hKn, hrest⟩ : ∃ S K rest, w1.stack = S :: K :: rest ∧ S.id = w.nextK ∧ S.names = ps ∧ K.id = w.cur ∧
      (K.id, K.names) = (K0.id, K0.names) ∧ (rest.map fun g => (g.id, g.names)) = rest0.map fun g => (g.id, g.names) := by
    unfold shape at hsh
    rw [hst0] at hsh
    match hq : w1.stack with
    | [] => rw [hq] at hsh; simp at hsh
    | [x] => rw [hq] at hsh; simp at hsh
    | x :: y :: r =>
      rw [hq] at hsh
      simp only [List.map_cons, List.cons.injEq, Prod.mk.injEq] at hsh
      obtain ⟨⟨a1, a2⟩, ⟨a3, a4⟩, a5⟩ := hsh
      exact ⟨x, y, r, rfl, a1, a2, a3.trans hK0, by rw [a3, a4], a5⟩
  have hSm : S ∈ w1.stack := by rw [hst1]; simp
  have hKm : K ∈ w1.stack := by rw [hst1]; simp
  have hcur1 : w1.cur = S.id := by unfold World.cur; rw [hst1]
  subst hSn
  -- old nodes
  have hold : ∀ m, w.Live m → (w.node m).op ≠ .NONE → w1.Live m ∧ FieldsEq (w.node m) (w1.node m) := fun m hm hn =>
    ⟨st1.live m ((begun_live m).mpr hm) hn, st1.same m ((begun_live m).mpr hm) hn⟩
  have hkernlt : ∀ m, w.Live m → (w.node m).kern < w.nextK := by
    rintro m ⟨g, hgm, hm⟩
    rw [(hi.st.own g hgm m hm).2]; exact hi.st.idLt g hgm
  have holdS : ∀ m, w.Live m → w1.Live m → m ∉ S.nodes := by
    intro m hm hm1 hmS
    have h1 := (hi1.st.own S hSm m hmS).2
    obtain ⟨-, -, -, -, -, -, e⟩ := st1.keep m (live_lt hi.st hm) hm1
    have h3 := hkernlt m hm
    rw [h1, hSid] at e
    exact absurd e (Nat.ne_of_gt h3)
  have inK : ∀ m, w1.Live m → (w1.node m).kern = w.cur → m ∈ K.nodes := by
    rintro m ⟨g, hgm, hm⟩ hk
    have h1 := (hi1.st.own g hgm m hm).2
    have : g = K := eq_of_id hi1.st hgm hKm (by rw [← h1, hk, hKid])
    rw [← this]; exact hm
  -- the promised variable
  obtain ⟨hvl1, -, hvi1, hvo1⟩ := hg1.pend v (by simp)
  obtain ⟨hvl, -⟩ := hg.pend v (by simp)
  have hvf := (st1.keep v (live_lt hi.st hvl) hvl1).2
  have hvn1 : (w1.node v).op = .NONE := hvf.1.trans hvn
  have hvK : v ∈ K.nodes := inK v hvl1 (hvf.2.2.2.2.2.trans hvk)
  have hKS : ∀ m, m ∈ K.nodes → m ∉ S.nodes := by
    intro m h1 h2
    have := one_kernel hi1.st hKm hSm h1 h2
    have h3 := hi.st.idLt K0 (by rw [hst0]; simp)
    rw [← this, hKid, ← hK0] at hSid
    omega
  -- the arguments
  have harg : ∀ i a, Arg Z w i a → w1.Live a ∧ FieldsEq (w.node a) (w1.node a) ∧ a ∈ K.nodes := by
    intro i a h
    obtain ⟨l, fe⟩ := hold a h.live h.notNone
    exact ⟨l, fe, inK a l (by rw [fe.2.2.2.2.2]; exact h.here)⟩
  have okOf : ∀ m, w1.Live m → (w1.node m).op ≠ .NONE → (w1.node m).op ≠ .OUT → NodeOK Z w1.view m := by
    intro m hm h1 h2
    refine hg1.ok m hm fun hN => ?_
    rcases (hg1.pend m hN).2.1 with e | ⟨e, -⟩
    · exact h1 e
    · exact h2 e
  obtain ⟨hz1, hz2, hz3⟩ := zip_bindings ha hin
  have hnd := hc.nodup
  rw [List.nodup_cons] at hnd
  set bi := args.zip (ins.map Prod.fst) with hbi
  have hlook : ∀ b ∈ bi, ∃ i ∈ ins, ∃ n, i.1 = b.2 ∧ Arg Z w i b.1 ∧ S.names.lookup b.2 = some n ∧ (w1.node n).op = .IN ∧
      Like Z (w1.view n) (w1.view b.1) ∧ Flow.width (w1.node n).ty = i.2 := by
    intro b hb
    obtain ⟨i, hii, n, e, h1, h2, h3, h4, h5⟩ := hz1 b hb
    rw [e] at h2
    obtain ⟨la, fa, -⟩ := harg i _ h1
    obtain ⟨f1, f2, f3, f4, f5, f6⟩ := fa
    have hnl : w1.Live n := ⟨S, hSm, (hi1.st.names S hSm _ (lookup_mem h2)).1⟩
    have hnn := (hi1.st.names S hSm _ (lookup_mem h2)).2.2
    have ok1 := okOf n hnl (by rw [h3]; simp) (by rw [h3]; simp)
    have ok2 := okOf b.1 la (by rw [f1]; exact h1.notNone) (by rw [f1]; exact h1.notOut)
    refine ⟨i, hii, n, e, h1, h2, h3, ⟨?_, ?_, ?_, ?_, ?_, ?_⟩, h4⟩
    · show Flow.width (w1.node b.1).ty = Flow.width (w1.node n).ty
      rw [f3, h1.width, h4]
    · have u1 := ok1.uns
      have u2 := ok2.uns
      unfold unsignedTy at u1 u2
      rw [u1, u2]
    · show (w1.node b.1).op ≠ _; rw [f1]; exact h1.notOut
    · show (w1.node b.1).op ≠ _; rw [f1]; exact h1.notNone
    · intro h; rw [show (w1.view n).op = .IN from h3] at h; cases h
    · intro _ hz
      have hz := hz h3
      show (w1.node b.1).kind = _ ∧ ((w1.node b.1).op = _ → ¬ Z (w1.node b.1).name)
      rw [f1, f4, f5]
      refine h1.kind.resolve_left fun hh => hz ?_
      show Z (w1.node n).name
      rw [hnn, ← e]; exact hh
  have hlout : ∀ n, S.names.lookup out = some n → n = o := by
    intro n hn; rw [hlo] at hn; injection hn with hn; exact hn.symm
  have hol : w1.Live o := ⟨S, hSm, (hi1.st.names S hSm _ (lookup_mem hlo)).1⟩
  have hov : insV w1 o = [(s, true)] := hos
  -- the bindings succeed
  obtain ⟨wa, S', K', t, b1, b2, b3, b4, b5, b6, b7, b8, b9, b10, b11, b12⟩ := bind_inputs (Z := Z) (k := k) (v := v) (o := o) (out := out)
    (rest := rest) bi w1 S K s hi1 hst1 (by
      intro b hb
      obtain ⟨i, -, n, e, h1, h2, h3, h4, -⟩ := hlook b hb
      refine ⟨(harg i _ h1).2.2, n, h2, h3, ?_, h4⟩
      have := (hg1.ninv n ⟨S, hSm, (hi1.st.names S hSm _ (lookup_mem h2)).1⟩).source (.inl h3)
      exact List.map_eq_nil_iff.mp this) (by rw [hz2]; exact hnd.2) hvK hvn1 hvi1 hlo (by rw [hz2]; exact hnd.1) hoo hov
    ⟨hs.val.width, hs.kind, hs.sel, hs.val.notOut, hs.val.notNone, .inl (by rw [hs.here, hcur1])⟩
  have htv : t ≠ v := by rintro rfl; exact b12.notNone b7
  obtain ⟨wb, c1⟩ := bindOut b2 b3 b9 b10 b6 b7 b8 b11 htv
  rw [b4, b5] at c1
  have hall : w1.bindAll K.id S.id (bi ++ [(v, out)]) = .ok (wb, args ++ [t]) := by
    rw [← hz3]
    refine bindAll_append _ _ _ _ _ _ _ _ _ b1 ?_
    unfold World.bindAll
    rw [c1]
    rfl
  have hmem : ∀ b ∈ bi ++ [(v, out)], b ∈ bi ∨ b = (v, out) := by
    intro b hb
    rcases List.mem_append.mp hb with h | h
    · exact .inl h
    · exact .inr (List.mem_singleton.mp h)
  have hBd : ∀ name n, w1.Bound name n → S.names.lookup name = some n := by
    rintro name n ⟨S2, r2, e, h⟩
    rw [hst1] at e
    injection e with e
    exact e ▸ h
  have noIn : ∀ n, w1.Live n → (w1.node n).op = .IN → (w1.node n).ins = [] := fun n hn h =>
    List.map_eq_nil_iff.mp ((hg1.ninv n hn).source (.inl h))
  have hclean : Clean w1 (.endInst (bi ++ [(v, out)])) := by
    intro b hb n hn
    have hn := hBd _ _ hn
    have hnl : w1.Live n := ⟨S, hSm, (hi1.st.names S hSm _ (lookup_mem hn)).1⟩
    refine ⟨fun h => noIn n hnl h, fun h => ?_⟩
    have := ((hi1.st.names S hSm _ (lookup_mem hn)).2.1).resolve_left h
    exact hg1.no_outs hnl (.inl this)
  have hfwd : Forward w1 (.endInst (bi ++ [(v, out)])) := by
    intro b hb b' hb' n n' hn hn' hI hO hd
    have hn := hBd _ _ hn
    have hn' := hBd _ _ hn'
    rcases hmem b' hb' with h' | rfl
    · obtain ⟨-, -, m, -, -, h2, h3, -⟩ := hlook b' h'
      rw [hn'] at h2; injection h2 with h2
      exact hO (h2 ▸ h3)
    rcases hmem b hb with h | rfl
    · obtain ⟨i, -, m, -, h1, -⟩ := hlook b h
      have : b.1 = v := dep_no_outs hi1 hvo1 hd
      exact h1.notNone (this ▸ hvn)
    · rw [hlout n hn, hoo] at hI; cases hI
  have hinbound : ∀ n ∈ S.nodes, (w1.node n).op = .IN → ∃ b ∈ bi, S.names.lookup b.2 = some n := by
    intro n hn hI
    have hl := hg1.ported S hSm n hn (.inl hI)
    rcases hnames _ (lookup_mem hl) with e | e
    · simp only at e
      rw [e, hlo] at hl
      injection hl with hl
      rw [← hl, hoo] at hI; cases hI
    · rw [← hz2] at e
      obtain ⟨b, hb, e⟩ := List.mem_map.mp e
      exact ⟨b, hb, by rw [e]; exact hl⟩
  have hproper : Proper w1 (.endInst (bi ++ [(v, out)])) := by
    refine ⟨⟨hclean, hfwd, trivial⟩, ?_⟩
    intro S2 r2 e n hn hI
    rw [hst1] at e
    injection e with e1 e2
    subst e1
    obtain ⟨b, hb, h⟩ := hinbound n hn hI
    exact ⟨b, by simp [hb], S, _, hst1, h⟩
  have hvars : ∀ b ∈ bi ++ [(v, out)], w1.Live b.1 ∧ b.1 ∉ S.nodes := by
    intro b hb
    rcases hmem b hb with h | rfl
    · obtain ⟨i, -, -, -, h1, -⟩ := hlook b h
      obtain ⟨l, -, hk⟩ := harg i _ h1
      exact ⟨l, hKS _ hk⟩
    · exact ⟨hvl1, hKS _ hvK⟩
  have steps := bindAll_steps _ w1 wb S K rest _ hi1 hst1 (clean_lookup hst1 hclean) hall
  obtain ⟨Sb, Kb, hstb, hSb, hKb, hKbn, hKbs, hSbs⟩ := steps_stack steps hst1
  -- the last step
  have hoa : o ∉ K.nodes := fun h => hKS o h (hi1.st.names S hSm _ (lookup_mem hlo)).1
  have stepsA := bindAll_steps _ w1 wa S K rest _ hi1 hst1 (fun b hb n hn => clean_lookup hst1 hclean b (by simp [hb]) n hn) b1
  obtain ⟨stO, eO, -, -⟩ := bindOne_step b2 b3 (b := (v, out)) (by
    intro m hm
    simp only at hm
    rw [b9] at hm
    injection hm with hm
    subst hm
    refine ⟨fun hh => (by rw [b10] at hh; cases hh), fun _ => ?_⟩
    refine steps_outs stepsA (fun b hb e => ?_) (hg1.no_outs hol (.inl hoo))
    exact (hvars b (by simp [hb])).2 (by rw [e]; exact (hi1.st.names S hSm _ (lookup_mem hlo)).1)) (by rw [b4, b5]; exact c1)
  have hstOn : stO.n = o := by
    have := stO.look
    rw [eO] at this
    simp only at this
    rw [b9] at this
    injection this with this
    exact this.symm
  have hlast : ∀ m, wb.Live m ↔ wa.Live m ∧ m ≠ o ∧ m ≠ v := by
    cases stO.eff with
    | input hI => rw [hstOn, b10] at hI; cases hI
    | shallow _ _ _ _ _ _ _ _ live => rw [hstOn] at live; exact live
    | self _ _ _ _ _ _ _ hh => exact absurd hh htv
    | output _ _ _ hout => simp only at hout; rw [b7] at hout; cases hout
  -- the transfer
  have htr : ∃ w2, wb.transfer = .ok w2 := by unfold World.transfer; rw [hstb]; exact ⟨_, rfl⟩
  obtain ⟨w2, htr⟩ := htr
  have hx : w1.exec F (.endInst (bi ++ [(v, out)])) = .ok (w2, args ++ [t]) := by
    unfold World.exec
    rw [if_neg (exec_guard hi1 (by
      intro a hm
      obtain ⟨b, hb, rfl⟩ := List.mem_map.mp hm
      exact (hvars b hb).1))]
    simp only [hst1]
    rw [hall]
    show (do
      let w ← wb.transfer
      return (w, args ++ [t])) = _
    rw [htr]
    rfl
  have hrun : Kernels.inst F p (bi ++ [(v, out)]) w = .ok (args ++ [t], w2) := by
    unfold Kernels.inst
    rw [build_bind (show call F .beginInst w = .ok ([], begun w) by unfold call; rw [exec_begin]), build_bind hp]
    unfold call
    rw [hx]
  obtain ⟨t1, t2, t3, t4⟩ := transfer_same htr
  have hkern2 : ∀ m, (w2.node m).kern = if m ∈ Sb.nodes then K.id else (w1.node m).kern := by
    intro m
    unfold World.transfer at htr
    rw [hstb] at htr
    injection htr with htr
    rw [← htr]
    simp only
    split
    · exact hKb
    · exact (steps_fields steps m).2.2.2.2
  have hst2 : w2.stack = { Kb with
        nodes := Kb.nodes ++ Sb.nodes
        starts := Kb.starts ++ Sb.starts.filter fun n => (wb.node n).op = .CONST } :: rest := by
    unfold World.transfer at htr
    rw [hstb] at htr
    injection htr with htr
    rw [← htr]
  have hf2 : ∀ m, (w2.node m).op = (w1.node m).op ∧ (w2.node m).data = (w1.node m).data ∧ (w2.node m).ty = (w1.node m).ty ∧
      (w2.node m).kind = (w1.node m).kind := by
    intro m
    obtain ⟨a1, a2, a3, a4, -⟩ := t4 m
    obtain ⟨s1, s2, s3, s4, -⟩ := steps_fields steps m
    exact ⟨a1.trans s1, a2.trans s2, a3.trans s3, a4.trans s4⟩
  have hname2 : ∀ m, w2.Live m → (w2.node m).name = (w1.node m).name := by
    intro m hm
    exact ((t4 m).2.2.2.2.1).trans (steps_name steps ((t3 m).mp hm))
  have live21 : ∀ m, w2.Live m → w1.Live m := fun m hm => steps.live_mono ((t3 m).mp hm)
  have live12 : ∀ m, w1.Live m → m ∉ S.nodes → ((w1.node m).op ≠ .NONE ∨ ∀ b ∈ bi ++ [(v, out)], b.1 ≠ m) → w2.Live m := by
    intro m h1 h2 h3
    exact (t3 m).mpr (steps_live steps hst1 h1 h2 h3)
  have hview : ∀ m, w2.view m = wb.view m := by
    intro m
    obtain ⟨a1, a2, a3, a4, a5, a6, -⟩ := t4 m
    unfold World.view
    simp only [a1, a2, a3, a4, a5, a6, t2]
  have fe12 : ∀ m, w1.Live m → w2.Live m → m ∉ S.nodes → FieldsEq (w1.node m) (w2.node m) := by
    intro m h1 h2 h3
    obtain ⟨a1, a2, a3, a4⟩ := hf2 m
    refine ⟨a1, a2, a3, a4, hname2 m h2, ?_⟩
    rw [hkern2, if_neg fun h => h3 (hSbs m h)]
  have oldLive2 : ∀ m, w.Live m → (w.node m).op ≠ .NONE → w2.Live m := by
    intro m h1 h2
    obtain ⟨l, fe⟩ := hold m h1 h2
    exact live12 m l (holdS m h1 l) (.inl (by rw [fe.1]; exact h2))
  -- equations
  obtain ⟨inl1, inl2⟩ := instance_inlines hi1 hst1 hclean hfwd hvars hx (X := (· = .IN)) (by simp) (patInterp fun _ => (0, 0))
  have sysEqs : ∀ ρ, Sys (· = .IN) (patInterp fun _ => (0, 0)) w1 S (bi ++ [(v, out)]) ρ →
      EquationsX (· = .IN) (patInterp fun _ => (0, 0)) w1 ρ ∧ EquationsX (· = .IN) (patInterp fun _ => (0, 0)) w ρ := by
    intro ρ hρ
    have e1 : EquationsX (· = .IN) (patInterp fun _ => (0, 0)) w1 ρ := fun m hm hop hX => hρ.eqs m hm hop hX fun h => hX h.1
    refine ⟨e1, ?_⟩
    have := st1.eqs ρ e1
    intro m hm hop hX
    exact this m ((begun_live m).mpr hm) hop hX
  have hist2 : Hist F Proper World.init w2 := .snoc _ hg1.hist hproper hx
  have hi2 : Inv w2 := (wellUsed_hist (hist2.mono fun _ _ h => h.1)).1
  have hstep : Step [] w w2 := by
    refine ⟨oldLive2, ?_, ?_, ?_, ?_, ?_⟩
    · intro m h1 h2
      obtain ⟨l, fe⟩ := hold m h1 h2
      exact fe.trans (fe12 m l (oldLive2 m h1 h2) (holdS m h1 l))
    · intro m hlt hm
      obtain ⟨l, fe⟩ := st1.keep m hlt (live21 m hm)
      have l := (begun_live m).mp l
      exact ⟨l, fe.trans (fe12 m (live21 m hm) hm (holdS m l (live21 m hm)))⟩
    · have : w2.next = w1.next := t1.trans steps.next
      rw [this]; exact st1.next
    · intro ρ' hρ'
      obtain ⟨ρ, hag, hsys⟩ := inl2 ρ' hρ'
      have hw := (sysEqs ρ hsys).2
      intro m hm hop hX
      refine (nodeEq_agree _ (hag m (oldLive2 m hm hop)).symm fun x hx => ?_).mpr (hw m hm hop hX)
      by_cases hN : m ∈ v :: N
      · rw [srcs_eq, (hg.pend m hN).2.2.1] at hx; cases hx
      · have h0 := (hg.ok m hm hN).srcs x hx
        refine (hag x (oldLive2 x ?_ h0.2)).symm
        rw [srcs_eq] at hx
        obtain ⟨ch, hch, rfl⟩ := List.mem_map.mp hx
        exact (hi.ch.inn m hm ch hch).2.2.1
    · rw [addNames_nil]
      unfold shape
      rw [hst2, hst0]
      simp only [List.map_cons]
      rw [hrest, hKbn, hKb, hKn]
  have hgood : Good F Z N w2 := by
    refine ⟨hist2, ?_, ?_, ?_⟩
    · intro n hl hN
      have hlb := (t3 n).mp hl
      have := steps_ok (Z := Z) (N := v :: N) steps hst1 (by
        intro b hb n hn
        rcases hmem b hb with h | rfl
        · obtain ⟨i, -, m, -, h1, h2, h3, h4, -⟩ := hlook b h
          rw [hn] at h2
          injection h2 with h2
          subst h2
          exact ⟨(hvars b hb).2, fun _ => h4, fun hh => absurd h3 hh⟩
        · rw [hlout n hn]
          exact ⟨(hvars _ hb).2, (fun hh => by rw [hoo] at hh; cases hh), fun _ => hvn1⟩) hg1.ok n hlb (by
        rw [List.mem_cons, not_or]
        refine ⟨?_, hN⟩
        rintro rfl
        exact ((hlast n).mp hlb).2.2 rfl)
      exact this.same (hview n) fun s _ => hview s
    · intro n hn
      obtain ⟨p1, p2, p3, p4⟩ := hg1.pend n (by simp [hn])
      obtain ⟨q1, -⟩ := hg.pend n (by simp [hn])
      have hbne : ∀ b ∈ bi ++ [(v, out)], b.1 ≠ n := by
        intro b hb
        rcases hmem b hb with h | rfl
        · obtain ⟨i, -, -, -, h1, -⟩ := hlook b h
          obtain ⟨-, fe, -⟩ := harg i _ h1
          rintro rfl
          rcases p2 with e | ⟨e, -⟩
          · exact h1.notNone (by rw [← fe.1]; exact e)
          · exact h1.notOut (by rw [← fe.1]; exact e)
        · rintro rfl; exact hvN hn
      obtain ⟨a1, a2, a3, -⟩ := hf2 n
      have i1 := steps_ins steps hbne p3
      have i2 := steps_outs steps hbne p4
      refine ⟨live12 n p1 (holdS n q1 p1) (.inr hbne), by rw [a1, a2, a3]; exact p2, ?_, ?_⟩
      · rw [(t4 n).2.2.2.2.2.1]; exact i1
      · rw [(t4 n).2.2.2.2.2.2]; exact i2
    · intro g hg' n hn ho
      have hl : w2.Live n := ⟨g, hg', hn⟩
      rw [(hf2 n).1] at ho
      rw [hname2 n hl]
      rw [hst2] at hg'
      rcases List.mem_cons.mp hg' with rfl | hg'
      · show Kb.names.lookup _ = _
        rw [hKbn]
        rcases List.mem_append.mp hn with h | h
        · exact hg1.ported K hKm n (hKbs n h) ho
        · -- ports of the instance are gone
          exfalso
          have hnS := hSbs n h
          obtain ⟨-, -, gone⟩ := steps.bound_gone hst1 hstb
          have hl1 := hg1.ported S hSm n hnS ho
          rcases hnames _ (lookup_mem hl1) with e | e
          · simp only at e
            exact gone (v, out) (by simp) n (by rw [← e]; exact hl1) h
          · rw [← hz2] at e
            obtain ⟨b, hb, e⟩ := List.mem_map.mp e
            exact gone b (by simp [hb]) n (by rw [e]; exact hl1) h
      · exact hg1.ported g (by rw [hst1]; simp [hg']) n hn ho
  -- the result
  have htb : wb.Live t := by
    have hoL : wa.Live o := ⟨S', by rw [b3]; simp, (b2.st.names S' (by rw [b3]; simp) _ (lookup_mem b9)).1⟩
    refine (hlast t).mpr ⟨insV_live b2 hoL (p := (t, true)) (by rw [b11]; simp), ?_, htv⟩
    rintro rfl
    exact b12.notOut b10
  have ht2 : w2.Live t := (t3 t).mpr htb
  have stepB : BindSteps wa wb [(v, out)] [t] := .cons stO (.nil _)
  obtain ⟨z1, -, z3, z4, z5⟩ := steps_fields stepB t
  have z6 := steps_name stepB htb
  obtain ⟨y1, -, y3, y4, y5, -⟩ := t4 t
  have hcur2 : w2.cur = K.id := by unfold World.cur; rw [hst2]; exact hKb
  have hkt : (w2.node t).kern = w2.cur := by
    rw [hcur2, hkern2]
    split
    · rfl
    · rename_i hnS
      have hka : (wa.node t).kern = (w1.node t).kern := (steps_fields stepsA t).2.2.2.2
      rw [← hka]
      refine b12.kern.resolve_left fun e => hnS ?_
      obtain ⟨g, hgm, hm⟩ := htb
      have := (steps.inv hi1).st.own g hgm t hm
      rw [z5, e] at this
      have : g = Sb := eq_of_id (steps.inv hi1).st hgm (by rw [hstb]; simp) (by rw [← this.2, hSb])
      rw [← this]; exact hm
  have hot2 : (w2.node t).op = (wa.node t).op := y1.trans z1
  refine ⟨t, w2, hrun, hgood, hstep, ⟨⟨ht2, .inl hkt, ?_, ?_, ?_, ?_⟩, hkt, ?_, ?_⟩⟩
  · rw [hot2]; exact b12.notOut
  · rw [hot2]; exact b12.notNone
  · rw [y3, z3]; exact b12.width
  · intro ρ' hρ'
    obtain ⟨ρ, hag, hsys⟩ := inl2 ρ' hρ'.eqs
    obtain ⟨he1, he⟩ := sysEqs ρ hsys
    have satIn : ∀ m, w2.Live m → (w1.node m).op = .IN → (ρ m).1 = Flow.width (w1.node m).ty ∧ (ρ m).2 < 2 ^ Flow.width (w1.node m).ty := by
      intro m hm hI
      obtain ⟨a1, -, a3, -⟩ := hf2 m
      have := hρ'.ins m hm (by rw [a1]; exact hI)
      rw [a3] at this
      rw [hag m hm]
      exact this
    have hsat : Sat w ρ := by
      refine ⟨he, fun m hm hI => ?_⟩
      obtain ⟨l, fe⟩ := hold m hm (by rw [hI]; simp)
      have := satIn m (oldLive2 m hm (by rw [hI]; simp)) (by rw [fe.1]; exact hI)
      rw [fe.2.2.1] at this
      exact this
    have hsat1 : Sat w1 ρ := by
      refine ⟨he1, fun m hm hI => ?_⟩
      by_cases hmS : m ∈ S.nodes
      · obtain ⟨b, hb, hl⟩ := hinbound m hmS hI
        obtain ⟨i, -, n, -, h1, h2, -, -, h5⟩ := hlook b hb
        rw [hl] at h2
        injection h2 with h2
        subst h2
        rw [← hsys.bound b (by simp [hb]) m hl, h5]
        exact h1.val ρ hsat
      · exact satIn m (live12 m hm hmS (.inl (by rw [hI]; simp))) hI
    have hval := hs.val.val ρ hsat1
    have e1 : ρ v = ρ o := hsys.bound (v, out) (by simp) o hlo
    have e2 : ρ o = ρ s := by
      have := he1 o hol (by rw [hoo]; simp) (by rw [hoo]; simp)
      unfold NodeEq at this
      rw [show (w1.view o).op = .OUT from hoo] at this
      exact this s (by unfold NodeV.srcs; rw [hos]; rfl)
    have e3 : ρ t = ρ v := by
      exact forall₂_last (R := fun (b : Nat × String) hd => ρ hd = ρ b.1) (by rw [← hz3, List.length_map]) (inl1 ρ hsys).2
    have e4 : ns.map ρ = args.map ρ :=
      bound_values (names := S.names) ha.length_eq.symm hin fun b hb n hn => hsys.bound b (List.mem_append_left _ hb) n hn
    have e5 : args.map ρ = args.map ρ' := by
      refine List.map_congr_left fun a hm => ?_
      obtain ⟨i, -, hai⟩ := forall₂_mem_left ha.flip a hm
      exact hag a (oldLive2 a hai.live hai.notNone)
    rw [← hag t ht2, e3, e1, e2, hval, e4, e5]
  · rw [y4, z4]; exact b12.kind
  · rw [hot2, y5, z6]; exact b12.sel

end

end Verif.Kernels
