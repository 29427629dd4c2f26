import Verif.Dfcxx.WorldSpec
import Mathlib.Data.List.Nodup
import Mathlib.Tactic.Tauto
/-
Channel bookkeeping, independent of kernels: `L` is the set of live nodes.
-/
namespace Verif.Dfcxx

structure ChanInv (L : Nat → Prop) (node : Nat → NodeRec) (chan : Nat → Chan) (nextC : Nat) : Prop where
  out : ∀ n, L n → ∀ c ∈ (node n).outs, c < nextC ∧ (chan c).src = n ∧ L (chan c).tgt ∧ c ∈ (node (chan c).tgt).ins
  inn : ∀ n, L n → ∀ c ∈ (node n).ins, c < nextC ∧ (chan c).tgt = n ∧ L (chan c).src ∧ c ∈ (node (chan c).src).outs
  outNd : ∀ n, L n → (node n).outs.Nodup
  inNd : ∀ n, L n → (node n).ins.Nodup

/-- Only the channel lists of live nodes matter. -/
theorem ChanInv.congr {L L' : Nat → Prop} {node node' : Nat → NodeRec} {chan : Nat → Chan} {nextC : Nat}
    (h : ChanInv L node chan nextC) (hL : ∀ n, L' n ↔ L n)
    (hn : ∀ n, L n → (node' n).ins = (node n).ins ∧ (node' n).outs = (node n).outs) : ChanInv L' node' chan nextC := by
  constructor
  · intro n l c hc
    have l := (hL n).mp l
    rw [(hn n l).2] at hc
    obtain ⟨h1, h2, h3, h4⟩ := h.out n l c hc
    exact ⟨h1, h2, (hL _).mpr h3, by rw [(hn _ h3).1]; exact h4⟩
  · intro n l c hc
    have l := (hL n).mp l
    rw [(hn n l).1] at hc
    obtain ⟨h1, h2, h3, h4⟩ := h.inn n l c hc
    exact ⟨h1, h2, (hL _).mpr h3, by rw [(hn _ h3).2]; exact h4⟩
  · intro n l
    have l := (hL n).mp l
    rw [(hn n l).2]; exact h.outNd n l
  · intro n l
    have l := (hL n).mp l
    rw [(hn n l).1]; exact h.inNd n l

/-- A new node without channels. -/
theorem ChanInv.addNode {L : Nat → Prop} {node node' : Nat → NodeRec} {chan : Nat → Chan} {nextC x : Nat}
    (h : ChanInv L node chan nextC) (hx : ¬ L x) (he : (node' x).ins = [] ∧ (node' x).outs = [])
    (hn : ∀ n, n ≠ x → (node' n).ins = (node n).ins ∧ (node' n).outs = (node n).outs) :
    ChanInv (fun n => n = x ∨ L n) node' chan nextC := by
  have ne : ∀ {n}, L n → n ≠ x := fun l e => hx (e ▸ l)
  constructor
  · rintro n (rfl | l) c hc
    · rw [he.2] at hc; cases hc
    · rw [(hn n (ne l)).2] at hc
      obtain ⟨h1, h2, h3, h4⟩ := h.out n l c hc
      exact ⟨h1, h2, Or.inr h3, by rw [(hn _ (ne h3)).1]; exact h4⟩
  · rintro n (rfl | l) c hc
    · rw [he.1] at hc; cases hc
    · rw [(hn n (ne l)).1] at hc
      obtain ⟨h1, h2, h3, h4⟩ := h.inn n l c hc
      exact ⟨h1, h2, Or.inr h3, by rw [(hn _ (ne h3)).2]; exact h4⟩
  · rintro n (rfl | l)
    · rw [he.2]; exact List.nodup_nil
    · rw [(hn n (ne l)).2]; exact h.outNd n l
  · rintro n (rfl | l)
    · rw [he.1]; exact List.nodup_nil
    · rw [(hn n (ne l)).1]; exact h.inNd n l

theorem link_outs (w : World) (s t i : Nat) (b : Bool) (m : Nat) :
    ((w.link s t i b).node m).outs = if m = s then (w.node m).outs ++ [w.nextC] else (w.node m).outs := by
  unfold World.link
  dsimp only
  split <;> split <;> rfl

theorem link_ins (w : World) (s t i : Nat) (b : Bool) (m : Nat) :
    ((w.link s t i b).node m).ins = if m = t then (w.node m).ins ++ [w.nextC] else (w.node m).ins := by
  unfold World.link
  dsimp only
  split <;> split <;> rfl

/-- A new channel between live nodes. -/
theorem ChanInv.link {L : Nat → Prop} (w : World) (s t i : Nat) (b : Bool) (h : ChanInv L w.node w.chan w.nextC)
    (hs : L s) (ht : L t) : ChanInv L (w.link s t i b).node (w.link s t i b).chan (w.link s t i b).nextC := by
  have ec : ∀ c, c < w.nextC → (w.link s t i b).chan c = w.chan c := by
    intro c hc; unfold World.link; dsimp only; rw [if_neg (by omega)]
  have en : (w.link s t i b).chan w.nextC = ⟨s, t, i, b⟩ := by unfold World.link; simp
  have mo : ∀ m c, c ∈ (w.node m).outs → c ∈ ((w.link s t i b).node m).outs := by
    intro m c hc; rw [link_outs]; split <;> simp [hc]
  have mi : ∀ m c, c ∈ (w.node m).ins → c ∈ ((w.link s t i b).node m).ins := by
    intro m c hc; rw [link_ins]; split <;> simp [hc]
  have nC : (w.link s t i b).nextC = w.nextC + 1 := rfl
  constructor
  · intro n l c hc
    rw [link_outs] at hc
    have key : c ∈ (w.node n).outs ∨ (n = s ∧ c = w.nextC) := by
      split at hc
      · simp only [List.mem_append, List.mem_singleton] at hc
        rcases hc with hc | hc
        · exact Or.inl hc
        · exact Or.inr ⟨by assumption, hc⟩
      · exact Or.inl hc
    rcases key with hc | ⟨rfl, rfl⟩
    · obtain ⟨h1, h2, h3, h4⟩ := h.out n l c hc
      rw [ec c h1]
      exact ⟨by omega, h2, h3, mi _ _ h4⟩
    · rw [en]
      exact ⟨by omega, rfl, ht, by rw [link_ins]; simp⟩
  · intro n l c hc
    rw [link_ins] at hc
    have key : c ∈ (w.node n).ins ∨ (n = t ∧ c = w.nextC) := by
      split at hc
      · simp only [List.mem_append, List.mem_singleton] at hc
        rcases hc with hc | hc
        · exact Or.inl hc
        · exact Or.inr ⟨by assumption, hc⟩
      · exact Or.inl hc
    rcases key with hc | ⟨rfl, rfl⟩
    · obtain ⟨h1, h2, h3, h4⟩ := h.inn n l c hc
      rw [ec c h1]
      exact ⟨by omega, h2, h3, mo _ _ h4⟩
    · rw [en]
      exact ⟨by omega, rfl, hs, by rw [link_outs]; simp⟩
  · intro n l
    rw [link_outs]
    split
    · apply List.Nodup.append (h.outNd n l) (List.nodup_singleton _)
      intro c hc hc'
      simp only [List.mem_singleton] at hc'
      have := (h.out n l c hc).1
      omega
    · exact h.outNd n l
  · intro n l
    rw [link_ins]
    split
    · apply List.Nodup.append (h.inNd n l) (List.nodup_singleton _)
      intro c hc hc'
      simp only [List.mem_singleton] at hc'
      have := (h.inn n l c hc).1
      omega
    · exact h.inNd n l

/-- Moving all outputs of `x` to `s`, after which `x` (without inputs) is dropped. -/
theorem ChanInv.move {L : Nat → Prop} {node node' : Nat → NodeRec} {chan chan' : Nat → Chan} {nextC s x : Nat}
    (h : ChanInv L node chan nextC) (hs : L s) (hx : L x) (hsx : s ≠ x) (hin : (node x).ins = [])
    (hc : ∀ c, chan' c = if c ∈ (node x).outs then { chan c with src := s } else chan c)
    (hi : ∀ n, (node' n).ins = (node n).ins)
    (ho : ∀ n, n ≠ x → (node' n).outs = if n = s then (node n).outs ++ (node x).outs else (node n).outs) :
    ChanInv (fun n => L n ∧ n ≠ x) node' chan' nextC := by
  have tgt_eq : ∀ c, (chan' c).tgt = (chan c).tgt := by intro c; rw [hc]; split <;> rfl
  have tgt_ne : ∀ n, L n → ∀ c ∈ (node n).outs, (chan c).tgt ≠ x := by
    intro n l c hm e
    have := (h.out n l c hm).2.2.2
    rw [e, hin] at this; cases this
  -- a channel of another node is not among the outputs of x
  have notx : ∀ n, L n → n ≠ x → ∀ c ∈ (node n).outs, c ∉ (node x).outs := by
    intro n l hne c hm hm'
    have a := (h.out n l c hm).2.1
    have b := (h.out x hx c hm').2.1
    exact hne (a.symm.trans b)
  constructor
  · rintro n ⟨l, hne⟩ c hm
    rw [ho n hne] at hm
    have key : c ∈ (node n).outs ∨ (n = s ∧ c ∈ (node x).outs) := by
      split at hm
      · simp only [List.mem_append] at hm
        rcases hm with hm | hm
        · exact Or.inl hm
        · exact Or.inr ⟨by assumption, hm⟩
      · exact Or.inl hm
    rcases key with hm | ⟨hns, hm2⟩
    · obtain ⟨h1, h2, h3, h4⟩ := h.out n l c hm
      refine ⟨h1, ?_, ?_, ?_⟩
      · rw [hc, if_neg (notx n l hne c hm)]; exact h2
      · rw [tgt_eq]; exact ⟨h3, tgt_ne n l c hm⟩
      · rw [tgt_eq, hi]; exact h4
    · obtain ⟨h1, h2, h3, h4⟩ := h.out x hx c hm2
      refine ⟨h1, ?_, ?_, ?_⟩
      · rw [hc, if_pos hm2, hns]
      · rw [tgt_eq]; exact ⟨h3, tgt_ne x hx c hm2⟩
      · rw [tgt_eq, hi]; exact h4
  · rintro n ⟨l, hne⟩ c hm
    rw [hi] at hm
    obtain ⟨h1, h2, h3, h4⟩ := h.inn n l c hm
    refine ⟨h1, by rw [tgt_eq]; exact h2, ?_⟩
    by_cases hcx : c ∈ (node x).outs
    · rw [hc, if_pos hcx]
      refine ⟨⟨hs, hsx⟩, ?_⟩
      rw [ho s hsx, if_pos rfl]
      exact List.mem_append.mpr (Or.inr hcx)
    · rw [hc, if_neg hcx]
      have hsrc : (chan c).src ≠ x := by
        intro e; rw [e] at h4; exact hcx h4
      refine ⟨⟨h3, hsrc⟩, ?_⟩
      rw [ho _ hsrc]
      split
      · exact List.mem_append.mpr (Or.inl h4)
      · exact h4
  · rintro n ⟨l, hne⟩
    rw [ho n hne]
    split
    · apply List.Nodup.append (h.outNd n l) (h.outNd x hx)
      exact fun c hm hm' => notx n l hne c hm hm'
    · exact h.outNd n l
  · rintro n ⟨l, hne⟩
    rw [hi]; exact h.inNd n l

/-- Dropping a node whose only channel is the input `c`, which is removed from its source. -/
theorem ChanInv.drop {L : Nat → Prop} {node node' : Nat → NodeRec} {chan : Nat → Chan} {nextC x c : Nat}
    (h : ChanInv L node chan nextC) (hx : L x) (hin : (node x).ins = [c]) (hout : (node x).outs = [])
    (hi : ∀ n, (node' n).ins = (node n).ins)
    (ho : ∀ n, (node' n).outs = if n = (chan c).src then (node n).outs.erase c else (node n).outs) :
    ChanInv (fun n => L n ∧ n ≠ x) node' chan nextC := by
  have hcx := h.inn x hx c (by rw [hin]; simp)
  have sub : ∀ n d, d ∈ (node' n).outs → d ∈ (node n).outs := by
    intro n d hd
    rw [ho] at hd
    split at hd
    · exact List.mem_of_mem_erase hd
    · exact hd
  have ne : ∀ n, L n → ∀ d ∈ (node' n).outs, d ≠ c := by
    rintro n l d hd rfl
    have hs := (h.out n l d (sub n d hd)).2.1
    rw [ho, if_pos hs.symm] at hd
    exact ((h.outNd n l).mem_erase_iff.mp hd).1 rfl
  constructor
  · rintro n ⟨l, hne⟩ d hd
    obtain ⟨h1, h2, h3, h4⟩ := h.out n l d (sub n d hd)
    refine ⟨h1, h2, ⟨h3, ?_⟩, by rw [hi]; exact h4⟩
    intro e
    rw [e, hin, List.mem_singleton] at h4
    exact ne n l d hd h4
  · rintro n ⟨l, hne⟩ d hd
    rw [hi] at hd
    obtain ⟨h1, h2, h3, h4⟩ := h.inn n l d hd
    have hdc : d ≠ c := by
      rintro rfl
      exact hne (h2.symm.trans hcx.2.1)
    refine ⟨h1, h2, ⟨h3, ?_⟩, ?_⟩
    · intro e; rw [e, hout] at h4; cases h4
    · rw [ho]
      split
      · exact (h.outNd _ h3).mem_erase_iff.mpr ⟨hdc, h4⟩
      · exact h4
  · rintro n ⟨l, hne⟩
    rw [ho]; split
    · exact (h.outNd n l).erase c
    · exact h.outNd n l
  · rintro n ⟨l, hne⟩
    rw [hi]; exact h.inNd n l

/-- Redirecting the only channel of a node without outputs to another node without inputs. -/
theorem ChanInv.redirect {L : Nat → Prop} {node node' : Nat → NodeRec} {chan chan' : Nat → Chan} {nextC x c t : Nat}
    (h : ChanInv L node chan nextC) (hx : L x) (ht : L t) (htx : t ≠ x) (hin : (node x).ins = [c]) (hout : (node x).outs = [])
    (htin : (node t).ins = [])
    (hc : ∀ d, chan' d = if d = c then { chan d with tgt := t } else chan d)
    (hi : ∀ n, (node' n).ins = if n = t then (node n).ins ++ [c] else (node n).ins)
    (ho : ∀ n, (node' n).outs = (node n).outs) :
    ChanInv (fun n => L n ∧ n ≠ x) node' chan' nextC := by
  have hcx := h.inn x hx c (by rw [hin]; simp)
  have src_eq : ∀ d, (chan' d).src = (chan d).src := by intro d; rw [hc]; split <;> rfl
  have hit : (node' t).ins = [c] := by rw [hi, if_pos rfl, htin]; rfl
  constructor
  · rintro n ⟨l, hne⟩ d hd
    rw [ho] at hd
    obtain ⟨h1, h2, h3, h4⟩ := h.out n l d hd
    refine ⟨h1, by rw [src_eq]; exact h2, ?_⟩
    by_cases hdc : d = c
    · rw [hc, if_pos hdc]
      exact ⟨⟨ht, htx⟩, by show d ∈ (node' t).ins; rw [hit, hdc]; simp⟩
    · rw [hc, if_neg hdc]
      refine ⟨⟨h3, ?_⟩, ?_⟩
      · intro e; rw [e, hin, List.mem_singleton] at h4; exact hdc h4
      · rw [hi]; split
        · exact List.mem_append.mpr (Or.inl h4)
        · exact h4
  · rintro n ⟨l, hne⟩ d hd
    by_cases hnt : n = t
    · subst hnt
      rw [hit, List.mem_singleton] at hd
      subst hd
      refine ⟨hcx.1, by rw [hc, if_pos rfl], ?_, ?_⟩
      · rw [src_eq]
        refine ⟨hcx.2.2.1, ?_⟩
        intro e
        have := hcx.2.2.2
        rw [e, hout] at this; cases this
      · rw [src_eq, ho]; exact hcx.2.2.2
    · rw [hi, if_neg hnt] at hd
      obtain ⟨h1, h2, h3, h4⟩ := h.inn n l d hd
      have hdc : d ≠ c := by
        rintro rfl
        exact hne (h2.symm.trans hcx.2.1)
      refine ⟨h1, by rw [hc, if_neg hdc]; exact h2, ?_, ?_⟩
      · rw [src_eq]
        refine ⟨h3, ?_⟩
        intro e; rw [e, hout] at h4; cases h4
      · rw [src_eq, ho]; exact h4
  · rintro n ⟨l, hne⟩
    rw [ho]; exact h.outNd n l
  · rintro n ⟨l, hne⟩
    by_cases hnt : n = t
    · subst hnt; rw [hit]; exact List.nodup_singleton c
    · rw [hi, if_neg hnt]; exact h.inNd n l

end Verif.Dfcxx
