import Verif.Kernels.Ports
/-
Bindings of instances: they succeed, and what they keep.
-/
namespace Verif.Kernels
open Verif.Dfcxx Verif.Flow

/-! ### Progress -/

theorem kernel_reset {w : World} {k S : Nat} {name : String} {n : Nat} {g : KGraph} (h : w.kernel k = some g) :
    ∃ g', (w.resetName S name n).kernel k = some g' ∧ g'.nodes = g.nodes := by
  unfold World.kernel World.resetName at *
  simp only [List.find?_map]
  refine ⟨_, by
    rw [show (fun g : KGraph => g.id == k) ∘ (fun g : KGraph => if g.id = S then { g with names := g.names.filter fun p => p.1 ≠ name } else g)
        = fun g : KGraph => g.id == k by
      funext g
      simp only [Function.comp_apply]
      split <;> rfl]
    rw [h]; rfl, ?_⟩
  dsimp only
  split <;> rfl

theorem bindIn {w : World} {S K : KGraph} {rest : List KGraph} (hi : Inv w) (hst : w.stack = S :: K :: rest) {a n : Nat} {name : String}
    (hl : S.names.lookup name = some n) (hop : (w.node n).op = .IN) (ha : a ∈ K.nodes) :
    ∃ w', w.bindOne K.id S.id (a, name) = .ok (w', a) := by
  have hS := kernel_eq hi.st (show S ∈ w.stack by rw [hst]; simp)
  have hK := kernel_eq hi.st (show K ∈ w.stack by rw [hst]; simp)
  obtain ⟨g', h1, h2⟩ := kernel_reset (S := S.id) (name := name) (n := n) hK
  unfold World.bindOne
  rw [hS]
  dsimp only
  rw [hl]
  dsimp only
  rw [if_pos (by rw [(resetName_fields w S.id name n n).1]; exact hop)]
  unfold World.rebindInput
  rw [h1]
  dsimp only
  rw [if_pos (by rw [h2]; exact ha)]
  exact ⟨_, rfl⟩

theorem bindOut {w : World} {S K : KGraph} {rest : List KGraph} (hi : Inv w) (hst : w.stack = S :: K :: rest) {v o t : Nat} {name : String}
    {f : Bool} (hl : S.names.lookup name = some o) (hop : (w.node o).op = .OUT) (hv : v ∈ K.nodes) (hnone : (w.node v).op = .NONE)
    (hvi : (w.node v).ins = []) (ho : insV w o = [(t, f)]) (htv : t ≠ v) :
    ∃ w', w.bindOne K.id S.id (v, name) = .ok (w', t) := by
  have hSm : S ∈ w.stack := by rw [hst]; simp
  have hS := kernel_eq hi.st hSm
  have hK := kernel_eq hi.st (show K ∈ w.stack by rw [hst]; simp)
  have hol : w.Live o := ⟨S, hSm, (hi.st.names S hSm _ (lookup_mem hl)).1⟩
  obtain ⟨g', h1, h2⟩ := kernel_reset (S := S.id) (name := name) (n := o) hK
  have fl := resetName_fields w S.id name o
  have hlen : (w.node o).ins.length = 1 := by
    have := congrArg List.length ho
    unfold insV at this
    simpa using this
  obtain ⟨c, hc⟩ := List.length_eq_one_iff.mp hlen
  have hct : (w.chan c).src = t := by
    unfold insV at ho
    rw [hc] at ho
    simp only [List.map_cons, List.map_nil, List.cons.injEq, Prod.mk.injEq, and_true] at ho
    exact ho.1
  have hco : c ∈ (w.node t).outs := by
    have := (hi.ch.inn o hol c (by rw [hc]; simp)).2.2.2
    rw [hct] at this
    exact this
  unfold World.bindOne
  rw [hS]
  dsimp only
  rw [hl]
  dsimp only
  rw [if_neg (by rw [(fl o).1, hop]; simp)]
  unfold World.rebindOutput
  rw [h1]
  dsimp only
  rw [if_neg (by rw [h2]; simpa using hv), if_neg (by rw [(fl v).2.2.2.2.2.1, hvi]; simp), (fl o).2.2.2.2.2.1, hc]
  dsimp only
  have hchan : ((w.resetName S.id name o).chan c).src = t := hct
  rw [if_pos (by rw [(fl v).1]; exact hnone), hchan, if_neg (by rw [(fl t).2.2.2.2.2.2]; simpa using hco), if_neg htv]
  exact ⟨_, rfl⟩

/-! ### What bindings keep -/

section
variable {w w' : World} {bs : List (Nat × String)} {hds : List Nat}

theorem BindStep.notS {b : Nat × String} {hd : Nat} (st : BindStep w w' b hd) {m : Nat} (h : m ∈ st.gK.nodes) : m ∉ st.gS.nodes := by
  intro hm
  have hids := st.inv.st.ids
  rw [st.stack] at hids
  simp only [List.map_cons, List.pairwise_cons, List.mem_cons] at hids
  have := one_kernel st.inv.st (show st.gK ∈ w.stack by rw [st.stack]; simp) (show st.gS ∈ w.stack by rw [st.stack]; simp) h hm
  have := hids.1 _ (Or.inl rfl)
  rw [← ‹st.gK = st.gS›] at this
  omega

theorem steps_fields (h : BindSteps w w' bs hds) (m : Nat) : (w'.node m).op = (w.node m).op ∧ (w'.node m).data = (w.node m).data ∧
    (w'.node m).ty = (w.node m).ty ∧ (w'.node m).kind = (w.node m).kind ∧ (w'.node m).kern = (w.node m).kern := by
  induction h with
  | nil => exact ⟨rfl, rfl, rfl, rfl, rfl⟩
  | cons st _ ih =>
    obtain ⟨a, b, c, d, e⟩ := ih
    exact ⟨a.trans (st.same.op m), b.trans (st.same.data m), c.trans (st.same.ty m), d.trans (st.same.kind m), e.trans (st.same.kern m)⟩

theorem steps_name (h : BindSteps w w' bs hds) {m : Nat} (hm : w'.Live m) : (w'.node m).name = (w.node m).name := by
  induction h with
  | nil => rfl
  | cons st steps ih =>
    refine (ih hm).trans (st.same.name m ?_)
    rintro rfl
    exact st.ndead (steps.live_mono hm)

theorem steps_stack (h : BindSteps w w' bs hds) {S K : KGraph} {rest : List KGraph} (hst : w.stack = S :: K :: rest) :
    ∃ S' K', w'.stack = S' :: K' :: rest ∧ S'.id = S.id ∧ K'.id = K.id ∧ K'.names = K.names ∧ (∀ m ∈ K'.nodes, m ∈ K.nodes) ∧
      ∀ m ∈ S'.nodes, m ∈ S.nodes := by
  induction h generalizing S K with
  | nil => exact ⟨S, K, hst, rfl, rfl, rfl, fun _ h => h, fun _ h => h⟩
  | cons st _ ih =>
    have e := st.stack
    rw [hst] at e
    injection e with e1 e2
    injection e2 with e2 e3
    subst e1; subst e2; subst e3
    obtain ⟨S', K', h1, h2, h3, h4, h5, h6⟩ := ih st.stack'
    exact ⟨S', K', h1, h2, h3, h4, fun m hm => (List.mem_filter.mp (h5 m hm)).1, fun m hm => (List.mem_filter.mp (h6 m hm)).1⟩

/-- Nodes outside the instance stay, unless they were only promised. -/
theorem steps_live (h : BindSteps w w' bs hds) {S : KGraph} {rest : List KGraph} (hst : w.stack = S :: rest) {m : Nat} (hm : w.Live m)
    (hS : m ∉ S.nodes) (hop : (w.node m).op ≠ .NONE ∨ ∀ b ∈ bs, b.1 ≠ m) : w'.Live m := by
  induction h generalizing S rest with
  | nil => exact hm
  | @cons w w1 w2 b bs hd hds st _ ih =>
    have hS' : S = st.gS := by
      have := st.stack
      rw [hst] at this
      injection this
    subst hS'
    have hne : m ≠ st.n := fun e => hS (e ▸ st.mem)
    refine ih st.stack' ?_ (fun hh => hS (List.mem_filter.mp hh).1) ?_
    · cases st.eff with
      | input _ _ _ live => exact (live m).mpr ⟨hm, hne⟩
      | shallow _ _ _ hnone _ _ _ _ live =>
        refine (live m).mpr ⟨hm, hne, fun e => ?_⟩
        rcases hop with hop | hop
        · exact hop (e ▸ hnone)
        · exact hop b (by simp) e.symm
      | self _ _ _ _ _ _ _ _ live => exact (live m).mpr ⟨hm, hne⟩
      | output _ _ _ _ _ _ _ live => exact (live m).mpr ⟨hm, hne⟩
    · rcases hop with hop | hop
      · left; rw [st.same.op]; exact hop
      · right; intro b' hb'; exact hop b' (by simp [hb'])

/-- Nodes nothing reads stay so. -/
theorem steps_outs (h : BindSteps w w' bs hds) {m : Nat} (hb : ∀ b ∈ bs, b.1 ≠ m) (ho : (w.node m).outs = []) : (w'.node m).outs = [] := by
  induction h with
  | nil => exact ho
  | @cons w w1 w2 b bs hd hds st _ ih =>
    refine ih (fun b' hb' => hb b' (by simp [hb'])) ?_
    cases st.eff with
    | input _ _ _ _ _ outs =>
      rcases outs m with e | ⟨e, -⟩
      · rw [e, ho]
      · exact absurd e.symm (hb b (by simp))
    | shallow _ _ _ _ _ _ _ _ _ _ outs =>
      rcases outs m with e | e
      · rw [e, ho]
      · rw [ho] at e; cases e
    | self _ _ _ _ _ _ _ _ _ _ outs =>
      rcases outs m with e | e
      · rw [e, ho]
      · rw [ho] at e; cases e
    | output _ _ _ _ _ _ _ _ _ outs => rw [outs, ho]

/-- Nodes nothing is connected to stay so. -/
theorem steps_ins (h : BindSteps w w' bs hds) {m : Nat} (hb : ∀ b ∈ bs, b.1 ≠ m) (hi : (w.node m).ins = []) : (w'.node m).ins = [] := by
  induction h with
  | nil => exact hi
  | @cons w w1 w2 b bs hd hds st _ ih =>
    refine ih (fun b' hb' => hb b' (by simp [hb'])) ?_
    cases st.eff with
    | input _ _ _ _ ins => rw [ins, hi]
    | shallow _ _ _ _ _ _ _ _ _ ins => rw [ins, hi]
    | self _ _ _ _ _ _ _ _ _ ins => rw [ins, hi]
    | output _ _ _ _ _ _ _ _ ins => rw [ins, if_neg (Ne.symm (hb b (by simp))), hi]

theorem Like.of_fields {Z : String → Prop} {v v' u u' : NodeV} (h : Like Z v v') (h1 : u.op = v.op) (h2 : u.ty = v.ty) (h3 : u.kind = v.kind)
    (h4 : u.name = v.name) (g1 : u'.op = v'.op) (g2 : u'.ty = v'.ty) (g3 : u'.kind = v'.kind) (g4 : u'.name = v'.name) : Like Z u u' := by
  refine ⟨by rw [h2, g2]; exact h.width, by rw [h2, g2]; exact h.sign, by rw [g1]; exact h.notOut, by rw [g1]; exact h.notNone,
    by rw [h1, g1]; exact h.const, by rw [h1, h3, h4, g1, g3, g4]; exact h.kind⟩

/-- Nodes stay in order. -/
theorem steps_ok {Z : String → Prop} {N : List Nat} (h : BindSteps w w' bs hds) {S : KGraph} {rest : List KGraph} (hst : w.stack = S :: rest)
    (hb : ∀ b ∈ bs, ∀ n, S.names.lookup b.2 = some n → b.1 ∉ S.nodes ∧ ((w.node n).op = .IN → Like Z (w.view n) (w.view b.1)) ∧
      ((w.node n).op ≠ .IN → (w.node b.1).op = .NONE))
    (hok : ∀ n, w.Live n → n ∉ N → NodeOK Z w.view n) : ∀ n, w'.Live n → n ∉ N → NodeOK Z w'.view n := by
  induction h generalizing S rest with
  | nil => exact hok
  | @cons w w1 w2 b bs hd hds st _ ih =>
    have hS' : S = st.gS := by
      have := st.stack
      rw [hst] at this
      injection this
    subst hS'
    have hSm : st.gS ∈ w.stack := by rw [st.stack]; simp
    obtain ⟨hb0, hb1, hb2⟩ := hb b (by simp) st.n st.look
    have hbn : b.1 ≠ st.n := fun e => hb0 (e ▸ st.mem)
    refine ih st.stack' ?_ ?_
    · intro b' hb' n hn
      obtain ⟨l1, l2⟩ := lookup_filter_ne hn
      obtain ⟨c0, c1, c2⟩ := hb b' (by simp [hb']) n l1
      have hne : n ≠ st.n := by
        intro e
        exact l2 (names_inj st.inv hSm (e ▸ l1) st.look)
      have hbne : b'.1 ≠ st.n := fun e => c0 (e ▸ st.mem)
      refine ⟨fun hh => c0 (List.mem_filter.mp hh).1, fun hI => ?_, fun hI => ?_⟩
      · rw [st.same.op] at hI
        exact (c1 hI).of_fields (st.same.op n) (st.same.ty n) (st.same.kind n) (st.same.name n hne) (st.same.op _) (st.same.ty _) (st.same.kind _)
          (st.same.name _ hbne)
      · rw [st.same.op] at hI ⊢
        exact c2 hI
    · intro n hl hN
      obtain ⟨σ, h1, h2, h3⟩ := st.insV
      have h0 := hok n (st.live_mono hl) hN
      rcases h3 n hl with e | ⟨e1, ho, ho', -⟩
      · refine h0.like (σ := σ) (st.same.op n) (st.same.data n) (st.same.ty n) (st.same.kind n) ?_ ?_
        · rw [insV_srcs, insV_srcs, e, List.map_map, List.map_map]; rfl
        · intro s hs
          have hσl : w1.Live (σ s) := by
            have : σ s ∈ (w1.view n).srcs := by
              rw [insV_srcs, e, List.map_map]
              rw [insV_srcs] at hs
              obtain ⟨p, hp, rfl⟩ := List.mem_map.mp hs
              exact List.mem_map.mpr ⟨p, hp, rfl⟩
            rw [insV_srcs] at this
            obtain ⟨p, hp, hps⟩ := List.mem_map.mp this
            rw [← hps]
            exact insV_live st.inv' hl hp
          obtain ⟨so, sn⟩ := h0.srcs s hs
          rcases h2 s with e | ⟨e1, hI, e2⟩ | ⟨e1, -, hnone, -⟩
          · rw [e] at hσl ⊢
            have hne : s ≠ st.n := by rintro rfl; exact st.ndead hσl
            exact (Like.refl ⟨so, sn⟩).of_fields rfl rfl rfl rfl (st.same.op s) (st.same.ty s) (st.same.kind s) (st.same.name s hne)
          · rw [e2, e1]
            exact (hb1 hI).of_fields rfl rfl rfl rfl (st.same.op _) (st.same.ty _) (st.same.kind _) (st.same.name _ hbn)
          · exact absurd hnone sn
      · have := hb2 (by rw [ho']; simp)
        rw [← e1, ho] at this
        cases this

/-- A source that may stand for an output of the instance. -/
structure Nice (Z : String → Prop) (w : World) (S K k t : Nat) : Prop where
  width : Flow.width (w.node t).ty = k
  kind : (w.node t).kind = .stream
  sel : (w.node t).op = .IN → ¬ Z (w.node t).name
  notOut : (w.node t).op ≠ .OUT
  notNone : (w.node t).op ≠ .NONE
  kern : (w.node t).kern = S ∨ (w.node t).kern = K

/-- Binding all the inputs succeeds. -/
theorem bind_inputs {Z : String → Prop} {k v o : Nat} {out : String} {rest : List KGraph} :
    ∀ (bs : List (Nat × String)) (w : World) (S K : KGraph) (s : Nat), Inv w → w.stack = S :: K :: rest →
      (∀ b ∈ bs, b.1 ∈ K.nodes ∧ ∃ n, S.names.lookup b.2 = some n ∧ (w.node n).op = .IN ∧ (w.node n).ins = [] ∧ Like Z (w.view n) (w.view b.1)) →
      (bs.map Prod.snd).Nodup → v ∈ K.nodes → (w.node v).op = .NONE → (w.node v).ins = [] → S.names.lookup out = some o →
      out ∉ bs.map Prod.snd → (w.node o).op = .OUT → insV w o = [(s, true)] → Nice Z w S.id K.id k s →
      ∃ w' S' K' t, w.bindAll K.id S.id bs = .ok (w', bs.map Prod.fst) ∧ Inv w' ∧ w'.stack = S' :: K' :: rest ∧ S'.id = S.id ∧ K'.id = K.id ∧
        v ∈ K'.nodes ∧ (w'.node v).op = .NONE ∧ (w'.node v).ins = [] ∧ S'.names.lookup out = some o ∧ (w'.node o).op = .OUT ∧
        insV w' o = [(t, true)] ∧ Nice Z w' S.id K.id k t
  | [], w, S, K, s, hi, hst, _, _, hv, hvn, hvi, hlo, _, hoo, ho, hn => ⟨w, S, K, s, rfl, hi, hst, rfl, rfl, hv, hvn, hvi, hlo, hoo, ho, hn⟩
  | b :: bs, w, S, K, s, hi, hst, hb, hnd, hv, hvn, hvi, hlo, hout, hoo, ho, hn => by
    have hSm : S ∈ w.stack := by rw [hst]; simp
    have hKm : K ∈ w.stack := by rw [hst]; simp
    obtain ⟨hbK, n, hl, hop, hins, hlike⟩ := hb b (by simp)
    obtain ⟨w1, hx⟩ := bindIn hi hst hl hop hbK
    obtain ⟨st, e1, e2, e3⟩ := bindOne_step hi hst (by
      intro m hm
      rw [hl] at hm
      injection hm with hm
      subst hm
      exact ⟨fun _ => hins, fun h => absurd hop h⟩) hx
    subst e1; subst e2; subst e3
    have hsn : st.n = n := by
      have := st.look
      rw [hl] at this
      injection this with this
      exact this.symm
    subst hsn
    have eff := st.eff
    have hK' : ∀ m ∈ st.gK.nodes, m ∈ (⟨st.gK.id, st.gK.nodes.filter (· ∉ st.D), st.gK.starts.filter (· ∉ st.D), st.gK.names⟩ : KGraph).nodes := by
      intro m hm
      have hml : w1.Live m := by
        cases eff with
        | input _ _ _ live => exact (live m).mpr ⟨⟨st.gK, hKm, hm⟩, fun e => BindStep.notS st hm (e ▸ st.mem)⟩
        | shallow _ ho' => rw [hop] at ho'; cases ho'
        | self _ ho' => rw [hop] at ho'; cases ho'
        | output _ ho' => rw [hop] at ho'; cases ho'
      obtain ⟨g, hg, hmg⟩ := hml
      have k1 := (st.inv'.st.own g hg m hmg).2
      rw [st.same.kern, (hi.st.own _ hKm m hm).2] at k1
      have : g = ⟨st.gK.id, st.gK.nodes.filter (· ∉ st.D), st.gK.starts.filter (· ∉ st.D), st.gK.names⟩ :=
        eq_of_id st.inv'.st hg (by rw [st.stack']; simp) k1.symm
      rw [← this]; exact hmg
    have hins1 : ∀ m, (w1.node m).ins = (w.node m).ins := by
      intro m
      cases eff with
      | input _ _ _ _ ins => exact ins m
      | shallow _ ho' => rw [hop] at ho'; cases ho'
      | self _ ho' => rw [hop] at ho'; cases ho'
      | output _ ho' => rw [hop] at ho'; cases ho'
    have hon : o ≠ st.n := by
      rintro e
      rw [e, hop] at hoo; cases hoo
    have hoS := (hi.st.names _ hSm _ (lookup_mem hlo)).1
    have hol : w1.Live o := by
      cases eff with
      | input _ _ _ live => exact (live o).mpr ⟨⟨_, hSm, hoS⟩, hon⟩
      | shallow _ ho' => rw [hop] at ho'; cases ho'
      | self _ ho' => rw [hop] at ho'; cases ho'
      | output _ ho' => rw [hop] at ho'; cases ho'
    have hbS : b.1 ∉ st.gS.nodes := BindStep.notS st hbK
    have hbn : b.1 ≠ st.n := fun e => hbS (by have := st.mem; rwa [← e] at this)
    simp only [List.map_cons, List.nodup_cons, List.mem_map, not_exists, not_and] at hnd
    simp only [List.map_cons, List.mem_cons, not_or] at hout
    -- the source of the output
    obtain ⟨σ, -, h2, h3⟩ := st.insV
    have ho1 : insV w1 o = [(σ s, true)] := by
      rcases h3 o hol with e | ⟨e, -⟩
      · rw [e, ho]; rfl
      · exact absurd hoS (e ▸ hbS)
    have hn1 : Nice Z w1 st.gS.id st.gK.id k (σ s) := by
      have hsl : w1.Live (σ s) := insV_live st.inv' hol (p := (σ s, true)) (by rw [ho1]; simp)
      rcases h2 s with e | ⟨e1, -, e2⟩ | ⟨-, e, -⟩
      · rw [e] at hsl ⊢
        have hne : s ≠ st.n := by rintro rfl; exact st.ndead hsl
        refine ⟨?_, ?_, ?_, ?_, ?_, ?_⟩
        · rw [st.same.ty]; exact hn.width
        · rw [st.same.kind]; exact hn.kind
        · rw [st.same.op, st.same.name s hne]; exact hn.sel
        · rw [st.same.op]; exact hn.notOut
        · rw [st.same.op]; exact hn.notNone
        · rw [st.same.kern]; exact hn.kern
      · rw [e2]
        rw [e1] at hn
        obtain ⟨k1, k2⟩ := hlike.kind hn.kind hn.sel
        refine ⟨?_, ?_, ?_, ?_, ?_, ?_⟩
        · rw [st.same.ty]; exact hlike.width.trans hn.width
        · rw [st.same.kind]; exact k1
        · rw [st.same.op, st.same.name _ hbn]; exact k2
        · rw [st.same.op]; exact hlike.notOut
        · rw [st.same.op]; exact hlike.notNone
        · rw [st.same.kern]; exact .inr (hi.st.own _ hKm _ hbK).2
      · rw [hop] at e; cases e
    obtain ⟨w', S', K', t, r1, r2, r3, r4, r5, r6, r7, r8, r9, r10, r11, r12⟩ := bind_inputs bs w1 _ _ (σ s) st.inv' st.stack' (by
      intro b' hb'
      obtain ⟨c1, n', c2, c3, c4, c5⟩ := hb b' (by simp [hb'])
      have hbne : b'.2 ≠ b.2 := fun e => hnd.1 b' hb' e
      have hne : n' ≠ st.n := by
        intro e
        exact hbne (names_inj hi hSm (e ▸ c2) hl)
      refine ⟨hK' _ c1, n', lookup_filter_of_ne c2 hbne, by rw [st.same.op]; exact c3, by rw [hins1]; exact c4, ?_⟩
      have hbne' : b'.1 ≠ st.n := fun e => BindStep.notS st c1 (e ▸ st.mem)
      exact c5.of_fields (st.same.op _) (st.same.ty _) (st.same.kind _) (st.same.name _ hne) (st.same.op _) (st.same.ty _) (st.same.kind _)
        (st.same.name _ hbne')) hnd.2 (hK' v hv) (by rw [st.same.op]; exact hvn) (by rw [hins1]; exact hvi)
      (lookup_filter_of_ne hlo hout.1) hout.2 (by rw [st.same.op]; exact hoo) ho1 hn1
    refine ⟨w', S', K', t, ?_, r2, r3, r4, r5, r6, r7, r8, r9, r10, r11, r12⟩
    unfold World.bindAll
    rw [hx]
    show (do
      let (w, hs) ← w1.bindAll st.gK.id st.gS.id bs
      return (w, b.1 :: hs)) = _
    rw [r1]
    rfl

theorem bindAll_append : ∀ (bs bs' : List (Nat × String)) (w w1 w2 : World) (K S : Nat) (r1 r2 : List Nat),
    w.bindAll K S bs = .ok (w1, r1) → w1.bindAll K S bs' = .ok (w2, r2) → w.bindAll K S (bs ++ bs') = .ok (w2, r1 ++ r2)
  | [], bs', w, w1, w2, K, S, r1, r2, h, h' => by
    unfold World.bindAll at h
    injection h with h
    injection h with h1 h2
    subst h1; subst h2
    exact h'
  | b :: bs, bs', w, w1, w2, K, S, r1, r2, h, h' => by
    unfold World.bindAll at h
    obtain ⟨⟨w0, hd⟩, h1, h2⟩ := bind_ok h
    obtain ⟨⟨w0', hs⟩, h3, h4⟩ := bind_ok h2
    injection h4 with h4
    injection h4 with h4 h5
    subst h4; subst h5
    have := bindAll_append bs bs' w0 _ w2 K S hs r2 h3 h'
    rw [List.cons_append]
    unfold World.bindAll
    rw [h1]
    show (do
      let (w, hs) ← w0.bindAll K S (bs ++ bs')
      return (w, hd :: hs)) = _
    rw [this]
    rfl

end

end Verif.Kernels
