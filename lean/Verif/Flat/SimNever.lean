import Verif.Flat.Simulate
import Verif.Flat.Idct
import Verif.Flat.RowIdct
import Verif.Kernels.Props
/-
C77: the example kernels that cannot be simulated.
-/
namespace Verif.Flat
open Verif.Dfcxx Verif.Flow Verif.Kernels

variable {F : FloatOps}

open Lean Elab Tactic in
/-- `RowIDCT` contains casts.  (By `Eq.refl`, evaluated by the kernel; given directly, because the elaborator is too slow to check it.) -/
theorem rowIdct_unsupported : hasUnsupported (rowIdct F) = true := by
  run_tac do (← getMainGoal).assign (mkApp2 (mkConst ``Eq.refl [1]) (mkConst ``Bool) (mkConst ``true))

/-- `RowIDCT` cannot be simulated: the simulator has no casts. -/
theorem rowIdct_never : NeverSimulates F (rowIdct F) := FDoes.never rowIdct_does rowIdct_unsupported

/-- A kernel with an output wider than 64 bits cannot be simulated. -/
theorem FDoes.never_wide {C : Cfg} {p : Build Unit} {outs : List OutPort}
    (h : FDoes F C p World.init (fun _ => []) (fun _ w => ∀ o ∈ outs, Established C w o)) {o : OutPort} (ho : o ∈ outs) (hw : 64 < o.bits) :
    NeverSimulates F p := by
  obtain ⟨u, w, h1, hg, -, hest⟩ := h
  obtain ⟨g, hf⟩ := hg.finished
  obtain ⟨n, hn⟩ := hest o ho
  have hng : n ∈ g.nodes := by
    obtain ⟨g', h, hm⟩ := hn.live
    rw [hf.only, List.mem_singleton] at h
    rw [← h]; exact hm
  refine never_of h1 hg.hist hf hng (.inr ?_)
  rw [totalBits_width (hg.node hf n hng).prod.1, hn.wid]
  exact hw

/-- `IDCT` cannot be simulated: it is too wide. -/
theorem idct_never : NeverSimulates F (idct F) := FDoes.never_wide idct_does (List.mem_singleton.mpr rfl) (by decide)

/-- A kernel with an input wider than 64 bits cannot be simulated. -/
theorem Contract.never {Z : String → Prop} {C : World → Prop} {p : Build Unit} {ins : List (String × Nat)} {out : String} {k : Nat}
    {f : List Pat → BitVec k} (hc : Contract F Z C p ins out k f) (hC : C World.init) {i : String × Nat} (hi : i ∈ ins) (hw : 64 < i.2) :
    NeverSimulates F p := by
  obtain ⟨w', g', o', e1, e2, e3, e4, -⟩ := hc.built hC
  obtain ⟨w, ps, ns, o, s, h1, h2, h3, h4, h5, h6, h7, h8, h9⟩ := hc.run [] World.init good_init rfl hC
  rw [e1] at h1
  cases h1
  have hsh : shape w' = [(0, ps)] := by
    rw [h3.shape]
    show [(0, ps ++ [])] = _
    rw [List.append_nil]
  have hnm : g'.names = ps := by
    unfold shape at hsh
    rw [e3.only] at hsh
    simp only [List.map_cons, List.map_nil, List.cons.injEq, Prod.mk.injEq, and_true] at hsh
    exact hsh.2
  obtain ⟨m, -, q1, q2, q3, q4⟩ := Kernels.forall₂_mem_left h4 i hi
  have hol : (i.1, m) ∈ g'.names := by
    obtain ⟨l1, l2, e, -⟩ := List.lookup_eq_some_iff.mp q1
    rw [hnm, e]; simp
  obtain ⟨on, -, -⟩ := h2.inv.st.names g' (by rw [e3.only]; simp) (i.1, m) hol
  refine never_of e1 e2 e3 on (.inr ?_)
  rw [totalBits_width ((e4 fun _ => 0).supp m on).1, show Flow.width (w'.view m).ty = i.2 from q3]
  exact hw

/-- The ciphers cannot be simulated: their keys have 256 bits. -/
theorem magmaEncoder_never : NeverSimulates F (magmaEncoder F) :=
  Contract.never (magmaEncoder_contract (F := F) (Z := onlyLeft) (by simp [onlyLeft]) (by simp [onlyLeft])) trivial (i := ("key", 256)) (by simp) (by decide)

theorem magmaDecoder_never : NeverSimulates F (magmaDecoder F) :=
  Contract.never (magmaDecoder_contract (F := F) (Z := onlyLeft) (by simp [onlyLeft]) (by simp [onlyLeft])) trivial (i := ("key", 256)) (by simp) (by decide)

theorem kuznechikEncoder_never (v : Variant) : NeverSimulates F (kuznechikEncoder F v) :=
  Contract.never (kuznechikEncoder_contract (F := F) onlyLeft_names v) rfl (i := ("key", 256)) (by simp) (by decide)

theorem kuznechikDecoder_never (opt : Bool) : NeverSimulates F (kuznechikDecoder F (stdVariant opt)) :=
  Contract.never (kuznechikDecoder_contract (F := F) onlyLeft_names (v := stdVariant opt) rfl) rfl (i := ("key", 256)) (by simp) (by decide)

theorem exampleDecoder_never (mul : MulBy) : NeverSimulates F (kuznechikDecoder F (exampleDecoder mul)) :=
  Contract.never (kuznechikDecoder_contract (F := F) onlyLeft_names (v := exampleDecoder mul) rfl) rfl (i := ("key", 256)) (by simp) (by decide)

/-! ### Non-vacuity -/

/-- A document for `MuxMul`: two steps, x = 3 and ctrl = 1, then x = 0xffffffff (and ctrl, not mentioned, 0). -/
def muxDoc : List Block := [[("x", 3), ("ctrl", 1)], [("x", 0xffffffff)]]

theorem muxDoc_fits : DocFits [("x", 32), ("ctrl", 1)] muxDoc := by
  intro i hi
  simp only [List.mem_cons, List.not_mem_nil, or_false] at hi
  rcases hi with rfl | rfl
  · refine ⟨⟨_, List.mem_cons_self, 3, by simp⟩, fun b hb v hv => ?_⟩
    simp only [muxDoc, List.mem_cons, List.not_mem_nil, or_false] at hb
    rcases hb with rfl | rfl <;> simp at hv <;> subst hv <;> decide
  · refine ⟨⟨_, List.mem_cons_self, 1, by simp⟩, fun b hb v hv => ?_⟩
    simp only [muxDoc, List.mem_cons, List.not_mem_nil, or_false] at hb
    rcases hb with rfl | rfl <;> simp at hv
    subst hv; decide

def muxLines : List (List Char) := ["x 3".toList, "ctrl 0x1".toList, [], "x ffffffff".toList]

theorem muxLines_render : Renders muxDoc muxLines := by
  have h3 : HexNum ([] ++ ['3']) (16 * 0 + 3) := .snoc .nil (.inl rfl)
  have h1 : HexNum ([] ++ ['1']) (16 * 0 + 1) := .snoc .nil (.inl rfl)
  have hf : ∀ {l n}, HexNum l n → HexNum (l ++ ['f']) (16 * n + 15) := fun h => .snoc h (.inl rfl)
  have hff := hf (hf (hf (hf (hf (hf (hf (hf .nil)))))))
  refine .more (ls := ["x 3".toList, "ctrl 0x1".toList]) (.cons ⟨by decide, by decide, by decide, ['3'], ⟨['3'], by simp, h3, .inl rfl⟩, rfl⟩
    (.cons ⟨by decide, by decide, by decide, ['0', 'x', '1'], ⟨['1'], by simp, h1, .inr (.inl rfl)⟩, rfl⟩ .nil)) (.last ?_)
  exact .cons ⟨by decide, by decide, by decide, "ffffffff".toList, ⟨"ffffffff".toList, by simp, hff, .inl rfl⟩, rfl⟩ .nil

/-- The simulation of `MuxMul` on this file succeeds, and shows 6 and 0. -/
theorem muxMul_example : ∃ w g, muxMul F World.init = .ok ((), w) ∧ Finished w g ∧ ∀ G, Enumeration w g G → ∃ order,
    TopSort.topSort G = .ok order ∧ ∀ it, it.Perm order → ∃ vcd,
      simulate F w.view order it "x 3\nctrl 0x1\n\nx ffffffff\n".toList = .ok (some vcd) ∧ vcd.ticks.length = 2 ∧
      ∀ (t : Nat) (r : TickRec) (bits : List Char), vcd.ticks[t]? = some r → ("out", bits) ∈ r.values →
        binVal bits = if t = 0 then 6 else 0 := by
  obtain ⟨w, g, h1, hf, h⟩ := muxMul_simulates (F := F)
  refine ⟨w, g, h1, hf, fun G he => ?_⟩
  obtain ⟨order, ht, h⟩ := h G he
  refine ⟨order, ht, fun it hit => ?_⟩
  obtain ⟨vcd, hv, hl, h⟩ := h it hit muxDoc muxLines muxLines_render ⟨_, List.mem_cons_self, by simp⟩ (by decide) muxDoc_fits
  refine ⟨vcd, hv, hl, fun t r bits htr hb => ?_⟩
  obtain ⟨-, h⟩ := h _ (List.mem_singleton.mpr rfl)
  obtain ⟨-, h⟩ := h t r htr
  have := ((h (Nat.zero_le _)).2 bits hb).2.2
  have hl2 : vcd.ticks.length = 2 := hl
  have htl : t < 2 := by rw [← hl2]; exact (List.getElem?_eq_some_iff.mp htr).1
  rw [this]
  have : t = 0 ∨ t = 1 := by omega
  rcases this with rfl | rfl <;> rfl

end Verif.Flat
