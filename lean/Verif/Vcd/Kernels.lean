import Verif.Vcd.Tool
/-
C79, continued: the example kernels in `sim` mode, and what happens to names that are not identifier codes.
-/
namespace Verif.Vcd
open Verif.Dfcxx Verif.Flow Verif.Driver Verif.Cli Verif.Flat Verif.Kernels

/-- The constructor `p` of a kernel succeeds, and in `sim` mode, for every documented command line, every input file as in C77 and every enumeration of
the hash tables: the exit code is 0, no file but the output changes, and the output file is a value change dump in which every output has its width, is
unknown at time 0 and has at time `t + 1` the value of element `t` of its stream. -/
def ToolSimulates (F : FloatOps) (p : Build Unit) (ins : List (String × Nat)) (outs : List OutPort) : Prop :=
  ∃ w g, p World.init = .ok ((), w) ∧ Finished w g ∧
    ∀ G, Enumeration w g G → ∀ it, it.Perm g.nodes → ∀ (M : Type) (b : String → Option Bool) (cfg : SimConfig) (B : String → Backend M)
      (canOpen : String → Bool) (now : Clock) (ls : List String) (inp out : String) (fs : Files), SimLine cfg ls inp out → inp ≠ out → canOpen out = true →
      ∀ (doc : List Block) (lines : List (List Char)), Renders doc lines → (∃ b ∈ doc, b ≠ []) → doc.length ≤ 200 → DocFits ins doc →
        fs inp = some (String.ofList (lines.flatMap (· ++ ['\n']))) →
        ∃ fs' t f, program b cfg B (simMain F canOpen now w G it) ("sim" :: ls) fs = .ok (0, fs') ∧ fs' out = some (String.ofList t) ∧
          (∀ q, q ≠ out → fs' q = fs q) ∧ read t = some f ∧ endTime f.events = doc.length + 1 ∧
          ∀ o ∈ outs, Shows f o.name.toList o.bits 0 (List.replicate o.bits 'x') ∧
            ∀ t : Nat, t < doc.length → o.start ≤ t → ∃ bits, BinText bits o.bits (BitVec.ofNat 64 (o.val (docPort doc) t).toNat) ∧
              Shows f o.name.toList o.bits (t + 1) bits

/-- Names that are identifier codes, computed. -/
def wordOK (s : String) : Bool := decide (s = "") || (s.toList.all (fun c => decide ('!' ≤ c ∧ c ≤ '~')) && decide (s ≠ "$end"))

def wordsOK (p : Build Unit) : Bool :=
  match p World.init with
  | .ok (_, w) => w.stack.all fun g => g.nodes.all fun n => wordOK (w.view n).name
  | .error _ => false

theorem wordOK_sound {s : String} (h : wordOK s = true) : s = "" ∨ Named s := by
  by_cases e : s = ""
  · exact .inl e
  · unfold wordOK at h
    simp only [e, decide_false, Bool.false_or, Bool.and_eq_true, List.all_eq_true, decide_eq_true_eq] at h
    exact .inr ⟨e, h.1, h.2⟩

theorem plain_names {p : Build Unit} (hp : plainCode p = true) (hq : wordsOK p = true) {w : World} {g : KGraph} (h1 : p World.init = .ok ((), w)) (hf : Finished w g) : Names w g := by
  unfold plainCode at hp
  unfold wordsOK at hq
  rw [h1] at hp hq
  simp only [hf.only, List.all_cons, List.all_nil, Bool.and_true, Bool.and_eq_true] at hp hq
  obtain ⟨-, hp2⟩ := hp
  unfold namesOK at hp2
  simp only [List.all_eq_true, Bool.and_eq_true, Bool.or_eq_true, decide_eq_true_eq, Bool.not_eq_true'] at hp2 hq
  refine ⟨fun n hn => wordOK_sound (hq n hn), fun m hm k hk => ?_, fun m hm n hn hne' he' => ?_⟩
  · rcases hp2 m hm with h | ⟨this, -⟩
    · rw [hk] at h
      have := congrArg String.toList h
      simp [String.toList_append] at this
    rw [hk, String.toList_append] at this
    have hpre : "node".toList.isPrefixOf ("node".toList ++ (toString k).toList) = true := by
      rw [List.isPrefixOf_iff_prefix]; exact List.prefix_append _ _
    rw [hpre] at this
    cases this
  · rcases hp2 m hm with h | ⟨-, h⟩
    · exact absurd h hne'
    · rcases h n hn with h | h
      · exact absurd he' h
      · exact h

theorem plain_simTool {F : FloatOps} {p : Build Unit} {w : World} {g : KGraph} {ins : List (String × Nat)} {outs : List OutPort}
    (h1 : p World.init = .ok ((), w)) (hh : Hist F Proper World.init w) (hf : Finished w g) (hp : plainCode p = true) (hq : wordsOK p = true)
    (hi : ∀ n ∈ g.nodes, (w.view n).op = .IN → ((w.view n).name, width (w.view n).ty) ∈ ins)
    (hports : ∀ port, Fits ins port → PortsOK w.view g.nodes port) (ho : ∀ o ∈ outs, OutIs ins w g o)
    (hnm : ∀ o ∈ outs, o.name ≠ "") : ToolSimulates F p ins outs := by
  obtain ⟨w', g', h1', hf', hsim⟩ := plain_simulates h1 hh hf hp hi hports ho hnm
  rw [h1] at h1'
  cases h1'
  have hgg : g = g' := by
    have := hf'.only
    rw [hf.only] at this
    exact List.singleton_inj.mp this
  subst hgg
  have hn := plain_names hp hq h1 hf
  refine ⟨w, g, h1, hf, fun G he it hit M b cfg B canOpen now ls inp out fs hl hio hop doc lines hdoc hne hlen hfit hfile => ?_⟩
  obtain ⟨order, s1, hs⟩ := hsim G he
  obtain ⟨order', s1', s2, s3, -⟩ := finished_kernel_is_processable hh hf he
  rw [s1] at s1'; cases s1'
  have hito : it.Perm order := hit.trans s2.symm
  have hnd : it.Nodup := hito.nodup_iff.2 s3.nodup
  obtain ⟨vcd, hv, d2, d3⟩ := hs it hito doc lines hdoc hne hlen hfit
  obtain ⟨f, f1, f2, f3⟩ := simulation_reads hn hit hnd hv now
  refine ⟨(fs.put out "").put out (String.ofList (text now vcd)), text now vcd, f, ?_, ?_, ?_, f1, by rw [f2, d2], fun o hom => ?_⟩
  · rw [simLine_runs b hl]
    unfold simMain
    rw [s1]
    simp only [hfile, hop, if_true]
    have hin : ((fs.put out "") inp).getD "" = String.ofList (lines.flatMap (· ++ ['\n'])) := by
      simp [Files.put, hio, hfile]
    rw [hin, String.toList_ofList, hv]
  · simp [Files.put]
  · intro q hq; simp [Files.put, hq]
  · obtain ⟨n, hng, hname', hwid', -⟩ := ho o hom
    obtain ⟨dv, dt⟩ := d3 o hom
    have hwid : (w.view n).ty.totalBits = o.bits := by
      have hok : nodeOK w.view n = true := by
        unfold plainCode at hp
        rw [h1] at hp
        simp only [hf.only, List.all_cons, List.all_nil, Bool.and_true, Bool.and_eq_true, List.all_eq_true] at hp
        exact hp.1 n hng
      obtain ⟨i, fr, hty, hlo, hhi⟩ := nodeOK_ty hok
      have hw : width (w.view n).ty = i + fr := by rw [hty]; simp [width]
      rw [totalBits_width ⟨by rw [hw]; omega, by rw [hw]; omega, by rw [hty]; simp⟩, hwid']
    have hname : (w.view n).name ≠ "" := by rw [hname']; exact hnm o hom
    have hpos : 0 < vcd.ticks.length := by
      rw [d2]
      obtain ⟨b, hb, -⟩ := hne
      exact List.length_pos_of_mem hb
    have h0 := (f3 n hng hname 0 _ (List.getElem?_eq_getElem hpos)).1
    rw [hname', hwid] at h0
    refine ⟨h0, fun t ht hst => ?_⟩
    have ht' : t < vcd.ticks.length := by rw [d2]; exact ht
    obtain ⟨-, bits, hb, hs'⟩ := f3 n hng hname t _ (List.getElem?_eq_getElem ht')
    rw [hname', hwid] at hs'
    rw [hname'] at hb
    exact ⟨bits, ((dt t _ (List.getElem?_eq_getElem ht')).2 hst).2 bits hb, hs'⟩

theorem FDoes.simTool {F : FloatOps} {C : Cfg} {p : Build Unit} {outs : List OutPort}
    (h : FDoes F C p World.init (fun _ => []) (fun _ w => ∀ o ∈ outs, Established C w o)) (hp : plainCode p = true) (hq : wordsOK p = true)
    (hnm : ∀ o ∈ outs, o.name ≠ "") : ToolSimulates F p C.ins outs := by
  obtain ⟨u, w, h1, hg, -, ho⟩ := h
  obtain ⟨g, hf⟩ := hg.finished
  exact plain_simTool h1 hg.hist hf hp hq (fun n hn hop => ((hg.node hf n hn).inn hop).2) (fun _ hF => hg.ports hf hF)
    (fun o hm => Established.outIs hf (ho o hm)) hnm

/-! ### The example kernels -/

variable {F : FloatOps}

/-- `AddConst` in `sim` mode: 3x + 5. -/
theorem addConst_sim : ToolSimulates F (addConst F) [("x", 32)] [out32 "out" fun port t => 3 * at32 port "x" t + 5] :=
  FDoes.simTool (C := plainCfg [("x", 32)]) addConst_does rfl rfl (by simp [out32])

/-- `Polynomial2` in `sim` mode: x² + 2x. -/
theorem polynomial2_sim : ToolSimulates F (polynomial2 F) [("x", 32)] [out32 "out" fun port t => at32 port "x" t ^ 2 + 2 * at32 port "x" t] :=
  FDoes.simTool (C := plainCfg [("x", 32)]) polynomial2_does rfl rfl (by simp [out32])

/-- `Scalar3` in `sim` mode. -/
theorem scalar3_sim : ToolSimulates F (scalar3 F) [("x1", 32), ("y1", 32), ("x2", 32), ("y2", 32), ("x3", 32), ("y3", 32)]
    [out32 "out" fun port t => at32 port "x1" t * at32 port "y1" t + at32 port "x2" t * at32 port "y2" t + at32 port "x3" t * at32 port "y3" t] :=
  FDoes.simTool (C := plainCfg [("x1", 32), ("y1", 32), ("x2", 32), ("y2", 32), ("x3", 32), ("y3", 32)]) scalar3_does rfl rfl (by simp [out32])

/-- `MatrixMul2` in `sim` mode. -/
theorem matrixMul2_sim : ToolSimulates F (matrixMul2 F) matrixIns
    [out32 "out11" (rowByColumn "x11" "x12" "y11" "y21"), out32 "out12" (rowByColumn "x11" "x12" "y12" "y22"),
     out32 "out21" (rowByColumn "x21" "x22" "y11" "y21"), out32 "out22" (rowByColumn "x21" "x22" "y12" "y22")] :=
  FDoes.simTool (C := plainCfg matrixIns) matrixMul2_does rfl rfl (by simp [out32])

/-- `MuxMul` in `sim` mode. -/
theorem muxMul_sim : ToolSimulates F (muxMul F) [("x", 32), ("ctrl", 1)]
    [out32 "out" fun port t => if port "ctrl" t = 1 then 2 * at32 port "x" t else 0] :=
  FDoes.simTool (C := plainCfg [("x", 32), ("ctrl", 1)]) muxMul_does rfl rfl (by simp [out32])

/-! ### Names that are not identifier codes -/

/-- **C79, a limit.**  With a blank in a name the text cannot be read, whatever the values. -/
theorem blank_name_unreadable (now : Clock) : ∀ a b : String, Named a → Named b → ∀ (n : Nat) (x : List Char), (∀ c ∈ x, c = '0' ∨ c = '1') →
    read (text now ⟨[(a ++ " " ++ b, n)], [⟨1, [(a ++ " " ++ b, x)]⟩], 2⟩) = none := by
  intro a b ha hb n x hx
  have hne : ∀ s, Named s → s.toList ≠ "$end".toList := fun s h e => h.2.2 (by rw [← String.ofList_toList (s := s), e, String.ofList_toList])
  have hd : dec n ≠ "$end".toList := by
    intro e
    have := dec_digit (n := n) (c := '$') (by rw [e]; decide)
    revert this; decide
  have el : (a ++ " " ++ b).toList = a.toList ++ ' ' :: b.toList := by
    rw [String.toList_append, String.toList_append, show " ".toList = [' '] from rfl]
    simp
  have hv : ∀ r, words (varText (a ++ " " ++ b, n) ++ r) = "$var".toList :: (["wire".toList, dec n, a.toList, b.toList, a.toList, b.toList] ++
      "$end".toList :: words r) := by
    intro r
    unfold varText
    simp only [List.append_assoc, el]
    rw [words_append (t := "$var wire ".toList) (lit_ends "$var wire".toList ' ' rfl rfl)]
    show _ ++ words (dec n ++ ' ' :: (a.toList ++ ' ' :: (b.toList ++ ' ' :: (a.toList ++ ' ' :: (b.toList ++ ' ' :: ("$end".toList ++ '\n' :: r)))))) = _
    rw [words_word (dec_solid _) rfl, words_word ha.solid rfl, words_word hb.solid rfl, words_word ha.solid rfl, words_word hb.solid rfl,
      words_word (w := "$end".toList) ⟨by decide, by decide⟩ rfl]
    rfl
  have hw : ∃ ws, words (text now ⟨[(a ++ " " ++ b, n)], [⟨1, [(a ++ " " ++ b, x)]⟩], 2⟩) = "$date".toList :: (stampWords now ++ "$end".toList ::
      ("$version".toList :: (["Utopia".toList, "HLS".toList] ++ "$end".toList :: ("$timescale".toList :: (["1ps".toList] ++ "$end".toList ::
        ("$scope".toList :: (["module".toList, "logic".toList] ++ "$end".toList ::
          ("$var".toList :: (["wire".toList, dec n, a.toList, b.toList, a.toList, b.toList] ++ "$end".toList :: ws))))))))) := by
    rw [text_eq]
    simp only [List.append_assoc, reduceCtorEq, if_false, List.flatMap_cons, List.flatMap_nil, List.nil_append]
    rw [words_append (t := "$date ".toList) (lit_ends "$date".toList ' ' rfl rfl)]
    have e : ∀ r, " $end\n$version Utopia HLS $end\n$timescale 1ps $end\n\n$scope module logic $end\n".toList ++ r =
      ' ' :: ("$end\n$version Utopia HLS $end\n$timescale 1ps $end\n\n$scope module logic $end\n".toList ++ r) := fun r => rfl
    rw [e, stamp_words, words_append (t := "$end\n$version Utopia HLS $end\n$timescale 1ps $end\n\n$scope module logic $end\n".toList)
      (lit_ends "$end\n$version Utopia HLS $end\n$timescale 1ps $end\n\n$scope module logic $end".toList '\n' rfl rfl), hv]
    exact ⟨_, rfl⟩
  obtain ⟨ws, hw⟩ := hw
  unfold read
  rw [hw, commands_cmd (by decide) (by decide) (fun _ h => stampWords_ne h), commands_cmd (by decide) (by decide) (by decide),
    commands_cmd (by decide) (by decide) (by decide), commands_cmd (by decide) (by decide) (by decide), commands_cmd (by decide) (by decide) (by
      intro y hy
      simp only [List.mem_cons, List.not_mem_nil, or_false] at hy
      rcases hy with rfl | rfl | rfl | rfl | rfl | rfl
      · decide
      · exact hd
      · exact hne a ha
      · exact hne b hb
      · exact hne a ha
      · exact hne b hb)]
  cases commands none ws with
  | none => rfl
  | some q =>
    simp only [Option.map_some]
    have skip : ∀ (c : Word) (a : List Word) (cs : List (List Word)), c ≠ "$var".toList → decls? cs = none → decls? ((c :: a) :: cs) = none := by
      intro c a cs hc h
      simp only [decls?, decl?, if_neg hc, h]
    rw [skip _ _ _ (by decide) (skip _ _ _ (by decide) (skip _ _ _ (by decide) (skip _ _ _ (by decide) ?_)))]
    simp only [decls?, decl?, if_true]

end Verif.Vcd
