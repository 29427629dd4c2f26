import Verif.Dfcxx.WorldFinal
/-
C10: instantiating a kernel is inlining it.
-/
namespace Verif.Dfcxx

/-- The equation of a node depends only on these things. -/
theorem nodeEq_congr {α : Type} (I : Interp α) {V V' : Nat → NodeV} {ρ : Nat → α} {σ : Nat → Nat} {n : Nat}
    (hop : (V' n).op = (V n).op) (hd : (V' n).data = (V n).data) (ht : (V' n).ty = (V n).ty) (hk : (V' n).kind = (V n).kind)
    (hn : (V' n).name = (V n).name) (hs : (V' n).srcs = (V n).srcs.map σ) (hρ : ∀ x, ρ (σ x) = ρ x) :
    NodeEq I V' ρ n ↔ NodeEq I V ρ n := by
  have hm : (V' n).srcs.map ρ = (V n).srcs.map ρ := by
    rw [hs, List.map_map]
    exact List.map_congr_left fun x _ => hρ x
  unfold NodeEq
  rw [hop, hd, ht, hk, hn, hm, hs]
  cases ho : (V n).op <;> simp only
  · -- OUT
    constructor
    · intro h s e
      rw [h (σ s) (by rw [e]; rfl), hρ]
    · intro h s e
      cases hl : (V n).srcs with
      | nil => rw [hl] at e; cases e
      | cons x l =>
        cases l with
        | nil =>
          rw [hl] at e
          simp only [List.map_cons, List.map_nil, List.cons.injEq, and_true] at e
          rw [← e, hρ]
          exact h x hl
        | cons y l => rw [hl] at e; cases e
  · -- MUX
    constructor
    · intro h c alts e a ha
      have := h (σ c) (alts.map σ) (by rw [e]; rfl) (σ a) (by rw [hρ, List.getElem?_map, ha]; rfl)
      rw [this, hρ]
    · intro h c alts e a ha
      cases hl : (V n).srcs with
      | nil => rw [hl] at e; cases e
      | cons x l =>
        rw [hl] at e
        simp only [List.map_cons, List.cons.injEq] at e
        obtain ⟨e1, e2⟩ := e
        rw [← e1, hρ, ← e2, List.getElem?_map] at ha
        cases hg : l[I.sel (ρ x)]? with
        | none => rw [hg] at ha; cases ha
        | some y =>
          rw [hg] at ha
          simp only [Option.map_some, Option.some.injEq] at ha
          rw [← ha, hρ]
          exact h x l hl y hg

theorem nodeEq_agree {α : Type} (I : Interp α) {V : Nat → NodeV} {ρ ρ' : Nat → α} {n : Nat} (hn : ρ n = ρ' n)
    (hs : ∀ s ∈ (V n).srcs, ρ s = ρ' s) : NodeEq I V ρ n ↔ NodeEq I V ρ' n := by
  have hm : (V n).srcs.map ρ = (V n).srcs.map ρ' := List.map_congr_left hs
  unfold NodeEq
  rw [hm, hn]
  cases ho : (V n).op <;> simp only
  · constructor
    · intro h s e; rw [← hs s (by rw [e]; simp)]; exact h s e
    · intro h s e; rw [hs s (by rw [e]; simp)]; exact h s e
  · constructor
    · intro h c alts e a ha
      rw [← hs c (by rw [e]; simp)] at ha
      have ha' : a ∈ alts := List.mem_of_getElem? ha
      rw [← hs a (by rw [e]; simp [ha'])]
      exact h c alts e a ha
    · intro h c alts e a ha
      rw [hs c (by rw [e]; simp)] at ha
      have ha' : a ∈ alts := List.mem_of_getElem? ha
      rw [hs a (by rw [e]; simp [ha'])]
      exact h c alts e a ha

/-- The composite system with the remaining bindings; operators in `X` impose nothing. -/
structure Sys {α : Type} (X : OpType → Prop) (I : Interp α) (w : World) (S : KGraph) (bs : List (Nat × String)) (ρ : Nat → α) : Prop where
  eqs : ∀ m, w.Live m → (w.node m).op ≠ .NONE → ¬ X (w.node m).op → (¬ ((w.node m).op = .IN ∧ ∃ b ∈ bs, S.names.lookup b.2 = some m)) → NodeEq I w.view ρ m
  bound : ∀ b ∈ bs, ∀ n, S.names.lookup b.2 = some n → ρ b.1 = ρ n

/-- The equations of the nodes whose operator is not in `X`. -/
def EquationsX {α : Type} (X : OpType → Prop) (I : Interp α) (w : World) (ρ : Nat → α) : Prop :=
  ∀ m, w.Live m → (w.node m).op ≠ .NONE → ¬ X (w.node m).op → NodeEq I w.view ρ m

theorem insV_srcs (w : World) (m : Nat) : (w.view m).srcs = (insV w m).map Prod.fst := rfl

/-- The names of the instance after one step. -/
def BindStep.S' {w w' : World} {b : Nat × String} {hd : Nat} (st : BindStep w w' b hd) : KGraph :=
  ⟨st.gS.id, st.gS.nodes.filter (· ≠ st.n), st.gS.starts.filter (· ≠ st.n), st.gS.names.filter fun p => p.1 ≠ b.2⟩

theorem BindStep.nlive {w w' : World} {b : Nat × String} {hd : Nat} (st : BindStep w w' b hd) : w.Live st.n :=
  ⟨st.gS, by rw [st.stack]; simp, st.mem⟩

theorem BindStep.ndead {w w' : World} {b : Nat × String} {hd : Nat} (st : BindStep w w' b hd) : ¬ w'.Live st.n := by
  intro h
  cases st.eff with
  | input _ _ _ live => exact ((live _).mp h).2 rfl
  | shallow _ _ _ _ _ _ _ _ live => exact ((live _).mp h).2.1 rfl
  | self _ _ _ _ _ _ _ _ live => exact ((live _).mp h).2 rfl
  | output _ _ _ _ _ _ _ live => exact ((live _).mp h).2 rfl

/-- Distinct names denote distinct nodes. -/
theorem names_inj {w : World} (hi : Inv w) {g : KGraph} (hg : g ∈ w.stack) {s t : String} {n : Nat} (h : g.names.lookup s = some n)
    (h' : g.names.lookup t = some n) : s = t :=
  (hi.st.names g hg _ (lookup_mem h)).2.2.symm.trans (hi.st.names g hg _ (lookup_mem h')).2.2

theorem BindStep.sys {α : Type} {X : OpType → Prop} (hX : ¬ X .OUT) {I : Interp α} {w w' : World} {b : Nat × String} {hd : Nat} (st : BindStep w w' b hd)
    {bs : List (Nat × String)} {ρ : Nat → α} (h : Sys X I w st.gS (b :: bs) ρ) : Sys X I w' st.S' bs ρ ∧ ρ hd = ρ b.1 := by
  have hSm : st.gS ∈ w.stack := by rw [st.stack]; simp
  have hvn := h.bound b (by simp) st.n st.look
  have outEq : ∀ {c : Nat}, (w.node st.n).op = .OUT → (w.node st.n).ins = [c] → ρ st.n = ρ (w.chan c).src := by
    intro c ho hc
    have := h.eqs st.n st.nlive (by rw [ho]; simp) (by rw [ho]; exact hX) (by rw [ho]; simp)
    unfold NodeEq at this
    have e : (w.view st.n).op = .OUT := ho
    rw [e] at this
    exact this _ (by rw [srcs_eq, hc]; rfl)
  constructor
  swap
  · cases st.eff with
    | input _ _ hh => rw [hh]
    | shallow c hop _ _ _ hin _ hh => rw [hh, hvn, outEq hop hin]
    | self _ _ _ _ _ _ _ hh => rw [hh]
    | output _ _ _ _ _ _ hh => rw [hh]
  obtain ⟨σ, h1, h2, h3⟩ := st.insV
  have hρ : ∀ x, ρ (σ x) = ρ x := by
    intro x
    rcases h2 x with e | ⟨e, -, e2⟩ | ⟨e, ho, -, f, hf⟩
    · rw [e]
    · rw [e2, e, hvn]
    · have hlen : (Verif.Dfcxx.insV w st.n).length = 1 := by rw [hf]; rfl
      unfold Verif.Dfcxx.insV at hlen
      rw [List.length_map] at hlen
      obtain ⟨c, hc⟩ := List.length_eq_one_iff.mp hlen
      have e3 := outEq ho hc
      unfold Verif.Dfcxx.insV at hf
      rw [hc] at hf
      simp only [List.map_cons, List.map_nil, List.cons.injEq, Prod.mk.injEq, and_true] at hf
      rw [← hf.1, ← e3, ← hvn, e]
  refine ⟨?_, ?_⟩
  · intro m hm hop hx hnb
    have hm0 := st.live_mono hm
    have hne : m ≠ st.n := by rintro rfl; exact st.ndead hm
    rw [st.same.op] at hop hx
    have hnb' : ¬ ((w.node m).op = .IN ∧ ∃ b' ∈ b :: bs, st.gS.names.lookup b'.2 = some m) := by
      rintro ⟨hI, b', hb', hl⟩
      refine hnb ⟨(st.same.op m).trans hI, b', ?_, ?_⟩
      · rcases List.mem_cons.mp hb' with rfl | hb'
        · rw [st.look] at hl; injection hl with hl; exact absurd hl.symm hne
        · exact hb'
      · refine lookup_filter_of_ne hl ?_
        intro e
        rw [e, st.look] at hl
        injection hl with hl
        exact hne hl.symm
    have old := h.eqs m hm0 hop hx hnb'
    rcases h3 m hm with e | ⟨e1, ho, ho', -, e, -⟩
    · refine (nodeEq_congr I (V := w.view) (V' := w'.view) (σ := σ) (st.same.op m) (st.same.data m) (st.same.ty m) (st.same.kind m)
        (st.same.name m hne) ?_ hρ).mpr old
      rw [insV_srcs, insV_srcs, e, List.map_map, List.map_map]
      rfl
    · have hopv : (w'.view m).op = .OUT := (st.same.op m).trans ho
      unfold NodeEq
      rw [hopv]
      intro s hs
      rw [insV_srcs, e, ← insV_srcs, srcs_eq] at hs
      have hlen : ((w.node st.n).ins.map fun c => (w.chan c).src).length = 1 := by rw [hs]; rfl
      rw [List.length_map] at hlen
      obtain ⟨c, hc⟩ := List.length_eq_one_iff.mp hlen
      rw [hc] at hs
      simp only [List.map_cons, List.map_nil, List.cons.injEq, and_true] at hs
      rw [e1, hvn, outEq ho' hc, hs]
  · intro b' hb' n hn
    exact h.bound b' (by simp [hb']) n (lookup_filter_ne hn).1

theorem BindStep.sys_back {α : Type} {X : OpType → Prop} (hX : ¬ X .OUT) {I : Interp α} {w w' : World} {b : Nat × String} {hd : Nat} (st : BindStep w w' b hd)
    {bs : List (Nat × String)} {ρ1 : Nat → α} (h : Sys X I w' st.S' bs ρ1) (hvS : ∀ b' ∈ b :: bs, b'.1 ∉ st.gS.nodes)
    (hnm : ∀ b' ∈ bs, b'.2 ≠ b.2)
    (hdead : ∀ b' ∈ bs, (∃ n, st.S'.names.lookup b'.2 = some n) → b'.1 = b.1 → w'.Live b.1) :
    ∃ ρ, (∀ m, w'.Live m → ρ m = ρ1 m) ∧ Sys X I w st.gS (b :: bs) ρ := by
  have hSm : st.gS ∈ w.stack := by rw [st.stack]; simp
  have vne : b.1 ≠ st.n := by intro e; exact hvS b (by simp) (e ▸ st.mem)
  -- the handle
  have hdv : w'.Live b.1 → hd = b.1 := by
    intro hv
    cases st.eff with
    | input _ _ hh => exact hh
    | shallow _ _ _ _ _ _ _ _ live => exact absurd rfl ((live _).mp hv).2.2
    | self _ _ _ _ _ _ _ hh => exact hh
    | output _ _ _ _ _ _ hh => exact hh
  set ρ : Nat → α := fun x => if x = st.n ∨ x = b.1 then ρ1 hd else ρ1 x with hρdef
  have ρn : ρ st.n = ρ1 hd := by rw [hρdef]; simp
  have ρv : ρ b.1 = ρ1 hd := by rw [hρdef]; simp
  have ρo : ∀ x, x ≠ st.n → x ≠ b.1 → ρ x = ρ1 x := by intro x h1 h2; rw [hρdef]; simp [h1, h2]
  have agree : ∀ m, w'.Live m → ρ m = ρ1 m := by
    intro m hm
    by_cases e1 : m = st.n
    · subst e1; exact absurd hm st.ndead
    by_cases e2 : m = b.1
    · subst e2; rw [ρv, hdv hm]
    · exact ρo m e1 e2
  refine ⟨ρ, agree, ?_, ?_⟩
  swap
  · intro b' hb' n hn
    rcases List.mem_cons.mp hb' with rfl | hb'
    · rw [st.look] at hn; injection hn with hn; rw [← hn, ρn, ρv]
    have hname := hnm b' hb'
    have hn' : st.S'.names.lookup b'.2 = some n := lookup_filter_of_ne hn hname
    have e := h.bound b' hb' n hn'
    have nS := (st.inv.st.names _ hSm _ (lookup_mem hn)).1
    have n1 : n ≠ st.n := by
      intro e
      exact hname (names_inj st.inv hSm (e ▸ hn) st.look)
    have n2 : n ≠ b.1 := by rintro rfl; exact hvS b (by simp) nS
    have b1 : b'.1 ≠ st.n := by intro e; exact hvS b' (by simp [hb']) (e ▸ st.mem)
    rw [ρo n n1 n2, ← e]
    by_cases b2 : b'.1 = b.1
    · rw [b2, ρv, hdv (hdead b' hb' ⟨n, hn'⟩ b2)]
    · exact ρo _ b1 b2
  · obtain ⟨σ, h1, h2, h3⟩ := st.insV
    intro m hm hop hx hnb
    by_cases hmn : m = st.n
    · subst hmn
      have hI : (w.node st.n).op ≠ .IN := fun hI => hnb ⟨hI, b, by simp, st.look⟩
      have srcne : ∀ c, (w.node st.n).ins = [c] → (w.chan c).src ≠ st.n := by
        intro c hc e
        have := (st.inv.ch.inn st.n st.nlive c (by rw [hc]; simp)).2.2.2
        rw [e, st.cleanOut hI] at this
        cases this
      have outO : ∀ {c}, (w.node st.n).op = .OUT → (w.node st.n).ins = [c] → ρ1 hd = ρ (w.chan c).src →
          NodeEq I w.view ρ st.n := by
        intro c ho hc e
        unfold NodeEq
        have e2 : (w.view st.n).op = .OUT := ho
        rw [e2]
        intro s hs
        rw [srcs_eq, hc] at hs
        simp only [List.map_cons, List.map_nil, List.cons.injEq, and_true] at hs
        rw [ρn, e, hs]
      cases st.eff with
      | input hI' => exact absurd hI' hI
      | shallow c ho hv hnone hvi hin hne hh =>
        refine outO ho hin ?_
        rw [ρo _ (srcne c hin) hne, hh]
      | self c ho hv hnone hvi hin he hh => exact outO ho hin (by rw [he, ρv])
      | output c ho hv hout hvi hin hh live ins outs src =>
        refine outO ho hin ?_
        by_cases hsv : (w.chan c).src = b.1
        · rw [hsv, ρv]
        · rw [ρo _ (srcne c hin) hsv]
          have lv : w'.Live b.1 := (live _).mpr ⟨⟨st.gK, by rw [st.stack]; simp, hv⟩, vne⟩
          have hov : (w'.node b.1).op = .OUT := (st.same.op _).trans hout
          have := h.eqs b.1 lv (by rw [hov]; simp) (by rw [hov]; exact hX) (by rw [hov]; simp)
          unfold NodeEq at this
          have e2 : (w'.view b.1).op = .OUT := hov
          rw [e2] at this
          have := this (w.chan c).src (by rw [srcs_eq, ins, if_pos rfl]; simp [src])
          rw [hh]; exact this
    · have hm' : w'.Live m := by
        cases st.eff with
        | input _ _ _ live => exact (live m).mpr ⟨hm, hmn⟩
        | shallow _ _ _ hnone _ _ _ _ live =>
          exact (live m).mpr ⟨hm, hmn, by rintro rfl; exact hop hnone⟩
        | self _ _ _ _ _ _ _ _ live => exact (live m).mpr ⟨hm, hmn⟩
        | output _ _ _ _ _ _ _ live => exact (live m).mpr ⟨hm, hmn⟩
      have new := h.eqs m hm' (by rw [st.same.op]; exact hop) (by rw [st.same.op]; exact hx) (by
        rintro ⟨hI, b', hb', hl⟩
        exact hnb ⟨(st.same.op m).symm.trans hI, b', by simp [hb'], (lookup_filter_ne hl).1⟩)
      have newρ : NodeEq I w'.view ρ m := by
        refine (nodeEq_agree I (agree m hm') fun s hs => agree s ?_).mpr new
        rw [insV_srcs] at hs
        simp only [List.mem_map] at hs
        obtain ⟨p, hp, rfl⟩ := hs
        exact insV_live st.inv' hm' hp
      rcases h3 m hm' with e | ⟨e1, ho, ho', e0, e, -⟩
      · refine (nodeEq_congr I (V := w.view) (V' := w'.view) (σ := σ) (st.same.op m) (st.same.data m) (st.same.ty m) (st.same.kind m)
          (st.same.name m hmn) ?_ ?_).mp newρ
        · rw [insV_srcs, insV_srcs, e, List.map_map, List.map_map]
          rfl
        · intro x
          rcases h2 x with e | ⟨e, hI, e2⟩ | ⟨e, ho, hnone, f, hf⟩
          · rw [e]
          · rw [e2, e, ρn, ρv]
          · -- a shallow variable and its definition
            have src : ∀ c, (w.node st.n).ins = [c] → (w.chan c).src = σ x := by
              intro c hc
              unfold Verif.Dfcxx.insV at hf
              rw [hc] at hf
              simp only [List.map_cons, List.map_nil, List.cons.injEq, Prod.mk.injEq, and_true] at hf
              exact hf.1
            rw [e] at hnone
            cases st.eff with
            | input hI' => rw [hI'] at ho; cases ho
            | shallow c ho hv _ hvi hin hne hh =>
              have hI : (w.node st.n).op ≠ .IN := by rw [ho]; simp
              have sn : (w.chan c).src ≠ st.n := by
                intro e
                have := (st.inv.ch.inn st.n st.nlive c (by rw [hin]; simp)).2.2.2
                rw [e, st.cleanOut hI] at this
                cases this
              rw [← src c hin, ρo _ sn hne, e, ρv, hh]
            | self c _ _ _ _ hin he => rw [← src c hin, he, e]
            | output c _ _ hout => rw [hnone] at hout; cases hout
      · unfold NodeEq
        have e2 : (w.view m).op = .OUT := ho
        rw [e2]
        intro s hs
        rw [insV_srcs, e0] at hs
        cases hs

theorem BindSteps.sys {α : Type} {X : OpType → Prop} (hX : ¬ X .OUT) {I : Interp α} {w w' : World} {bs : List (Nat × String)} {hds : List Nat} (h : BindSteps w w' bs hds)
    {S : KGraph} {rest : List KGraph} (hst : w.stack = S :: rest) {ρ : Nat → α} (hs : Sys X I w S bs ρ) :
    EquationsX X I w' ρ ∧ List.Forall₂ (fun b hd => ρ hd = ρ b.1) bs hds := by
  induction h generalizing S rest with
  | nil => exact ⟨fun m hm hop hx => hs.eqs m hm hop hx (by simp), .nil⟩
  | @cons w w1 w2 b bs hd hds st _ ih =>
    have hS : S = st.gS := by
      have := st.stack
      rw [hst] at this
      injection this
    subst hS
    obtain ⟨h1, h2⟩ := st.sys hX hs
    obtain ⟨h3, h4⟩ := ih st.stack' h1
    exact ⟨h3, .cons h2 h4⟩

/-- What the remaining bindings need. -/
theorem BindSteps.needs {w w' : World} {bs : List (Nat × String)} {hds : List Nat} (h : BindSteps w w' bs hds)
    {S : KGraph} {rest : List KGraph} (hst : w.stack = S :: rest) : ∀ b ∈ bs, ∃ n, S.names.lookup b.2 = some n ∧
      ((w.node n).op ≠ .IN → w.Live b.1) := by
  induction h generalizing S rest with
  | nil => simp
  | @cons w w1 w2 b bs hd hds st _ ih =>
    have hS : S = st.gS := by
      have := st.stack
      rw [hst] at this
      injection this
    subst hS
    intro b' hb'
    rcases List.mem_cons.mp hb' with rfl | hb'
    · refine ⟨st.n, st.look, fun hI => ?_⟩
      have key : b'.1 ∈ st.gK.nodes → w.Live b'.1 := fun hv => ⟨st.gK, by rw [st.stack]; simp, hv⟩
      cases st.eff with
      | input hI' => exact absurd hI' hI
      | shallow _ _ hv => exact key hv
      | self _ _ hv => exact key hv
      | output _ _ hv => exact key hv
    · obtain ⟨n, hn, hl⟩ := ih st.stack' b' hb'
      refine ⟨n, (lookup_filter_ne hn).1, fun hI => st.live_mono (hl ?_)⟩
      rw [st.same.op]; exact hI

theorem BindSteps.sys_back {α : Type} {X : OpType → Prop} (hX : ¬ X .OUT) {I : Interp α} {w w' : World} {bs : List (Nat × String)} {hds : List Nat}
    (h : BindSteps w w' bs hds) {S : KGraph} {rest : List KGraph} (hst : w.stack = S :: rest) {ρ1 : Nat → α}
    (hvS : ∀ b ∈ bs, b.1 ∉ S.nodes) (hlive : ∀ b ∈ bs, w.Live b.1)
    (hfw : ∀ b ∈ bs, ∀ b' ∈ bs, ∀ n n', S.names.lookup b.2 = some n → S.names.lookup b'.2 = some n' → (w.node n).op = .IN →
      (w.node n').op ≠ .IN → b'.1 ≠ b.1)
    (hs : EquationsX X I w' ρ1) : ∃ ρ, (∀ m, w'.Live m → ρ m = ρ1 m) ∧ Sys X I w S bs ρ := by
  induction h generalizing S rest with
  | nil => exact ⟨ρ1, fun _ _ => rfl, fun m hm hop hx _ => hs m hm hop hx, by simp⟩
  | @cons w w1 w2 b bs hd hds st steps ih =>
    have hS : S = st.gS := by
      have := st.stack
      rw [hst] at this
      injection this
    subst hS
    have needs := steps.needs st.stack'
    -- the variables of the remaining bindings survive
    have alive : ∀ b' ∈ bs, w1.Live b'.1 := by
      intro b' hb'
      obtain ⟨n, hn, hl⟩ := needs b' hb'
      by_cases hI : (w1.node n).op = .IN
      swap
      · exact hl hI
      have hI0 : (w.node n).op = .IN := (st.same.op n).symm.trans hI
      have l0 := hlive b' (by simp [hb'])
      have n1 : b'.1 ≠ st.n := by intro e; exact hvS b' (by simp [hb']) (e ▸ st.mem)
      cases st.eff with
      | input _ _ _ live => exact (live _).mpr ⟨l0, n1⟩
      | shallow _ ho _ _ _ _ _ _ live =>
        refine (live _).mpr ⟨l0, n1, fun e => ?_⟩
        exact hfw b' (by simp [hb']) b (by simp) n st.n (lookup_filter_ne hn).1 st.look hI0 (by rw [ho]; simp) e.symm
      | self _ _ _ _ _ _ _ _ live => exact (live _).mpr ⟨l0, n1⟩
      | output _ _ _ _ _ _ _ live => exact (live _).mpr ⟨l0, n1⟩
    obtain ⟨ρ, h1, h2⟩ := ih st.stack' (fun b' hb' hm => hvS b' (by simp [hb']) (List.mem_filter.mp hm).1) alive (by
      intro x hx y hy n n' hn hn' hI hO
      rw [st.same.op] at hI hO
      exact hfw x (by simp [hx]) y (by simp [hy]) n n' (lookup_filter_ne hn).1 (lookup_filter_ne hn').1 hI hO) hs
    obtain ⟨ρ', h3, h4⟩ := st.sys_back hX h2 hvS (by
      intro b' hb'
      obtain ⟨n, hn, -⟩ := needs b' hb'
      exact (lookup_filter_ne hn).2) (by
      intro b' hb' _ e
      exact e ▸ alive b' hb')
    exact ⟨ρ', fun m hm => (h3 m (steps.live_mono hm)).trans (h1 m hm), h4⟩

/-- Closing an instance, for the equations of the operators not in `X`. -/
theorem instance_inlines {F : FloatOps} {w w' : World} {bs : List (Nat × String)} {rs : List Nat} {S : KGraph} {rest : List KGraph}
    (hi : Inv w) (hst : w.stack = S :: rest) (hc : Clean w (.endInst bs)) (hf : Forward w (.endInst bs))
    (hv : ∀ b ∈ bs, w.Live b.1 ∧ b.1 ∉ S.nodes) (hx : w.exec F (.endInst bs) = .ok (w', rs)) {X : OpType → Prop} (hX : ¬ X .OUT)
    {α : Type} (I : Interp α) :
    (∀ ρ, Sys X I w S bs ρ → EquationsX X I w' ρ ∧ List.Forall₂ (fun b hd => ρ hd = ρ b.1) bs rs) ∧
    (∀ ρ', EquationsX X I w' ρ' → ∃ ρ, (∀ m, w'.Live m → ρ m = ρ' m) ∧ Sys X I w S bs ρ) := by
  have hB : ∀ s n, S.names.lookup s = some n → w.Bound s n := fun s n h => ⟨S, rest, hst, h⟩
  cases exec_shape hx with
  | inst _ S' K rest' hst' w1 _ h1 h2 =>
    have e := hst'
    rw [hst] at e
    injection e with e1 e2
    subst e1; subst e2
    have steps := bindAll_steps bs w w1 S K rest' _ hi hst (clean_lookup hst hc) h1
    obtain ⟨t1, t2, t3, t4⟩ := transfer_same h2
    have hview : w'.view = w1.view := by
      funext m
      obtain ⟨a1, a2, a3, a4, a5, a6, -⟩ := t4 m
      unfold World.view
      simp only [a1, a2, a3, a4, a5, a6, t2]
    have heqs : ∀ ρ : Nat → α, EquationsX X I w' ρ ↔ EquationsX X I w1 ρ := by
      intro ρ
      unfold EquationsX
      rw [hview]
      constructor
      · intro h m hm hop hx; exact h m ((t3 m).mpr hm) (by rw [(t4 m).1]; exact hop) (by rw [(t4 m).1]; exact hx)
      · intro h m hm hop hx; exact h m ((t3 m).mp hm) (by rw [← (t4 m).1]; exact hop) (by rw [← (t4 m).1]; exact hx)
    constructor
    · intro ρ hρ
      obtain ⟨a, b⟩ := steps.sys hX hst (I := I) (ρ := ρ) hρ
      exact ⟨(heqs ρ).mpr a, b⟩
    · intro ρ' hρ'
      obtain ⟨ρ, a1, a2⟩ := steps.sys_back hX hst (fun b hb => (hv b hb).2) (fun b hb => (hv b hb).1) (by
        intro b hb b' hb' n n' hn hn' hI hO e
        exact hf b hb b' hb' n n' (hB _ _ hn) (hB _ _ hn') hI hO (e ▸ .refl _)) ((heqs ρ').mp hρ')
      exact ⟨ρ, fun m hm => a1 m ((t3 m).mp hm), a2⟩
  | new o ty sc name ho e hc => simp at hc
  | const ty v n hh hs _ _ => cases hs
  | op k o data ty l n ho hcr hh hl => cases hcr
  | same x e hs hcr _ => cases hs

/-- **C10.**  Closing an instance whose bindings name variables of other kernels has exactly the meaning of inlining: every
solution of the composite system (caller and instance, with the bound inputs and outputs identified with the caller's
variables) is a solution of the resulting equations, every solution of these extends to one of the composite system, and the
handles returned for the bindings have the values of the bound variables. -/
theorem instance_is_inlined {F : FloatOps} {w w' : World} {bs : List (Nat × String)} {rs : List Nat} {S : KGraph} {rest : List KGraph}
    (hw : Hist F Clean World.init w) (hst : w.stack = S :: rest) (hc : Clean w (.endInst bs)) (hf : Forward w (.endInst bs))
    (hv : ∀ b ∈ bs, w.Live b.1 ∧ b.1 ∉ S.nodes) (hx : w.exec F (.endInst bs) = .ok (w', rs)) {α : Type} (I : Interp α) :
    (∀ ρ, Composite I w bs ρ → Equations I w' ρ ∧ List.Forall₂ (fun b hd => ρ hd = ρ b.1) bs rs) ∧
    (∀ ρ', Equations I w' ρ' → ∃ ρ, (∀ m, w'.Live m → ρ m = ρ' m) ∧ Composite I w bs ρ) := by
  have hi := inv_hist (fun _ _ h => h) hw inv_init
  have hB : ∀ s n, w.Bound s n ↔ S.names.lookup s = some n := by
    intro s n
    constructor
    · rintro ⟨S', rest', e, h⟩
      rw [hst] at e
      injection e with e _
      exact e ▸ h
    · intro h; exact ⟨S, rest, hst, h⟩
  obtain ⟨h1, h2⟩ := instance_inlines hi hst hc hf hv hx (X := fun _ => False) (fun h => h) I
  constructor
  · intro ρ hρ
    obtain ⟨a, b⟩ := h1 ρ ⟨fun m hm hop _ hnb => hρ.eqs m hm hop (by simpa only [hB] using hnb),
      fun b hb n hn => hρ.bound b hb n ((hB _ _).mpr hn)⟩
    exact ⟨fun m hm hop => a m hm hop (fun h => h), b⟩
  · intro ρ' hρ'
    obtain ⟨ρ, a1, a2⟩ := h2 ρ' (fun m hm hop _ => hρ' m hm hop)
    exact ⟨ρ, a1, fun m hm hop hnb => a2.eqs m hm hop (fun h => h) (by simpa only [hB] using hnb),
      fun b hb n hn => a2.bound b hb n ((hB _ _).mp hn)⟩

end Verif.Dfcxx
