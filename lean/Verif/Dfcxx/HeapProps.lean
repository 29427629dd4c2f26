import Verif.Dfcxx.Heap
import Verif.Dfcxx.WorldExamples
/-
C85: nothing is deleted twice, nothing that is deleted is referred to.
-/
namespace Verif.Dfcxx

structure HInv (h : Heap) : Prop where
  inv : Inv h.w
  store : ∀ k n, n ∈ h.store k ↔ h.w.Live n ∧ (h.w.node n).kern = k
  once : ∀ k, (h.store k).Nodup
  freed : ∀ o ∈ h.freed, ∃ n, o = .node n ∧ n < h.w.next ∧ ¬ h.w.Live n
  nodup : h.freed.Nodup
  all : ∀ n, n < h.w.next → h.w.Live n ∨ Obj.node n ∈ h.freed

theorem hinv_init : HInv Heap.init := by
  refine ⟨inv_init, ?_, ?_, ?_, ?_, ?_⟩ <;> simp [Heap.init, World.init, World.Live]

/-- Deleting a live node. -/
theorem kern_of_mem {w : World} (hi : Inv w) {g : KGraph} (hg : g ∈ w.stack) {n : Nat} :
    n ∈ g.nodes ↔ w.Live n ∧ (w.node n).kern = g.id := by
  constructor
  · exact fun hn => ⟨⟨g, hg, hn⟩, (hi.st.own g hg n hn).2⟩
  · rintro ⟨⟨g', hg', hn⟩, hk⟩
    have : g' = g := eq_of_id hi.st hg' hg (((hi.st.own g' hg' n hn).2).symm.trans hk)
    exact this ▸ hn

/-- What one binding deletes: the bound node of the instance and, if a shallow variable of the caller is defined by something else, that
variable. -/
theorem BindStep.deletes {w w' : World} {b : Nat × String} {hd : Nat} (st : BindStep w w' b hd) :
    (w.bindDeletes st.gK.id st.gS.id b = [(st.gS.id, st.n)] ∧ ∀ m, w'.Live m ↔ w.Live m ∧ m ≠ st.n) ∨
    (w.bindDeletes st.gK.id st.gS.id b = [(st.gK.id, b.1), (st.gS.id, st.n)] ∧ b.1 ∈ st.gK.nodes ∧
      ∀ m, w'.Live m ↔ w.Live m ∧ m ≠ st.n ∧ m ≠ b.1) := by
  have hS : w.kernel st.gS.id = some st.gS := kernel_eq st.inv.st (by rw [st.stack]; simp)
  have hb : w.bindDeletes st.gK.id st.gS.id b = if (w.node st.n).op = .IN then [(st.gS.id, st.n)]
      else match (w.node st.n).ins with
        | [c] => if (w.node b.1).op = .NONE ∧ (w.chan c).src ≠ b.1 then [(st.gK.id, b.1), (st.gS.id, st.n)]
                 else [(st.gS.id, st.n)]
        | _ => [] := by
    unfold World.bindDeletes
    rw [hS]
    dsimp only
    rw [st.look]
    rfl
  rw [hb]
  cases st.eff with
  | input hop hv hh live ins outs src => exact Or.inl ⟨if_pos hop, live⟩
  | shallow c hop hv hnone hvi hin hne hh live ins outs src =>
    refine Or.inr ⟨?_, hv, live⟩
    rw [if_neg (by rw [hop]; simp), hin]
    exact if_pos ⟨hnone, hne⟩
  | self c hop hv hnone hvi hin he hh live ins outs src =>
    refine Or.inl ⟨?_, live⟩
    rw [if_neg (by rw [hop]; simp), hin]
    exact if_neg fun h => h.2 he
  | output c hop hv hout hvi hin hh live ins outs src =>
    refine Or.inl ⟨?_, live⟩
    rw [if_neg (by rw [hop]; simp), hin]
    exact if_neg fun h => by rw [hout] at h; cases h.1

theorem hinv_bindOne {h h' : Heap} {b : Nat × String} {hd : Nat} (hi : HInv h) {gS gK : KGraph} {rest : List KGraph}
    (hst : h.w.stack = gS :: gK :: rest)
    (hclean : ∀ n, gS.names.lookup b.2 = some n →
      ((h.w.node n).op = .IN → (h.w.node n).ins = []) ∧ ((h.w.node n).op ≠ .IN → (h.w.node n).outs = []))
    (he : h.bindOne gK.id gS.id b = .ok (h', hd)) : HInv h' ∧ ∃ st : BindStep h.w h'.w b hd, st.gS = gS ∧ st.gK = gK ∧ st.rest = rest := by
  unfold Heap.bindOne at he
  obtain ⟨⟨w1, hd1⟩, h1, h2⟩ := bind_ok he
  injection h2 with h2
  injection h2 with h2 h3
  subst h3
  subst h2
  obtain ⟨st, e1, e2, e3⟩ := bindOne_step hi.inv hst hclean h1
  subst e1; subst e2; subst e3
  refine ⟨?_, st, rfl, rfl, rfl⟩
  have hSm : st.gS ∈ h.w.stack := by rw [st.stack]; simp
  have hKm : st.gK ∈ h.w.stack := by rw [st.stack]; simp
  have hn := (kern_of_mem hi.inv hSm).mp st.mem
  have hids := hi.inv.st.ids
  rw [st.stack] at hids
  simp only [List.map_cons, List.pairwise_cons, List.mem_cons] at hids
  have hKS : st.gK.id ≠ st.gS.id := Nat.ne_of_lt (hids.1 _ (Or.inl rfl))
  rcases st.deletes with ⟨ed, live⟩ | ⟨ed, hv, live⟩
  · rw [ed]
    simp only [List.foldl_cons, List.foldl_nil, Heap.deleteNode]
    refine ⟨st.inv', ?_, ?_, ?_, ?_, ?_⟩
    · intro k n
      simp only
      rw [live, st.same.kern]
      have := hi.store k n
      split
      · rename_i e
        simp only [List.mem_filter, this]
        simp
        tauto
      · rename_i e
        rw [this]
        constructor
        · exact fun x => ⟨⟨x.1, fun e' => e (by rw [← x.2, e', hn.2])⟩, x.2⟩
        · exact fun x => ⟨x.1.1, x.2⟩
    · intro k
      dsimp only
      split
      · exact (hi.once k).filter _
      · exact hi.once k
    · intro o ho
      simp only [List.mem_append, List.mem_singleton] at ho
      rw [st.same.next]
      rcases ho with ho | rfl
      · obtain ⟨m, e, hl, hd⟩ := hi.freed o ho
        exact ⟨m, e, hl, fun hm => hd ((live m).mp hm).1⟩
      · exact ⟨st.n, rfl, live_lt hi.inv.st hn.1, fun hm => ((live _).mp hm).2 rfl⟩
    · refine List.Nodup.append hi.nodup (List.nodup_singleton _) ?_
      intro o ho ho'
      rw [List.mem_singleton] at ho'
      obtain ⟨m, e, hl, hd⟩ := hi.freed o ho
      rw [ho'] at e
      injection e with e
      exact hd (e ▸ hn.1)
    · intro m hm
      rw [st.same.next] at hm
      simp only [List.mem_append, List.mem_singleton]
      rcases hi.all m hm with hl | hf
      · by_cases e : m = st.n
        · exact Or.inr (Or.inr (by rw [e]))
        · exact Or.inl ((live m).mpr ⟨hl, e⟩)
      · exact Or.inr (Or.inl hf)
  · rw [ed]
    have hv := (kern_of_mem hi.inv hKm).mp hv
    have hne : b.1 ≠ st.n := fun e => hKS (by rw [← hv.2, e, hn.2])
    simp only [List.foldl_cons, List.foldl_nil, Heap.deleteNode]
    refine ⟨st.inv', ?_, ?_, ?_, ?_, ?_⟩
    · intro k n
      simp only
      rw [live, st.same.kern]
      have := hi.store k n
      split
      · rename_i e
        rw [if_neg (by rw [e]; exact hKS.symm)]
        simp only [List.mem_filter, this]
        simp
        constructor
        · rintro ⟨⟨x1, x2⟩, x3⟩
          exact ⟨⟨x1, x3, fun e' => hKS (by rw [← hv.2, ← e', x2, e])⟩, x2⟩
        · tauto
      · rename_i e
        split
        · rename_i e2
          simp only [List.mem_filter, this]
          simp
          constructor
          · rintro ⟨⟨x1, x2⟩, x3⟩
            exact ⟨⟨x1, fun e' => e (by rw [← x2, e', hn.2]), x3⟩, x2⟩
          · tauto
        · rename_i e2
          rw [this]
          constructor
          · exact fun x => ⟨⟨x.1, fun e' => e (by rw [← x.2, e', hn.2]), fun e' => e2 (by rw [← x.2, e', hv.2])⟩, x.2⟩
          · exact fun x => ⟨x.1.1, x.2⟩
    · intro k
      dsimp only
      split
      · split
        · exact ((hi.once k).filter _).filter _
        · exact (hi.once k).filter _
      · split
        · exact (hi.once k).filter _
        · exact hi.once k
    · intro o ho
      simp only [List.mem_append, List.mem_singleton] at ho
      rw [st.same.next]
      rcases ho with (ho | rfl) | rfl
      · obtain ⟨m, e, hl, hd⟩ := hi.freed o ho
        exact ⟨m, e, hl, fun hm => hd ((live m).mp hm).1⟩
      · exact ⟨b.1, rfl, live_lt hi.inv.st hv.1, fun hm => ((live _).mp hm).2.2 rfl⟩
      · exact ⟨st.n, rfl, live_lt hi.inv.st hn.1, fun hm => ((live _).mp hm).2.1 rfl⟩
    · rw [List.append_assoc]
      refine List.Nodup.append hi.nodup (by simp [hne]) ?_
      intro o ho ho'
      obtain ⟨m, e, hl, hd⟩ := hi.freed o ho
      simp only [List.singleton_append, List.mem_cons, List.not_mem_nil, or_false] at ho'
      rcases ho' with ho' | ho'
      · rw [ho'] at e; injection e with e; exact hd (e ▸ hv.1)
      · rw [ho'] at e; injection e with e; exact hd (e ▸ hn.1)
    · intro m hm
      rw [st.same.next] at hm
      simp only [List.mem_append, List.mem_singleton]
      rcases hi.all m hm with hl | hf
      · by_cases e : m = st.n
        · exact Or.inr (Or.inr (by rw [e]))
        · by_cases e2 : m = b.1
          · exact Or.inr (Or.inl (Or.inr (by rw [e2])))
          · exact Or.inl ((live m).mpr ⟨hl, e, e2⟩)
      · exact Or.inr (Or.inl (Or.inl hf))

theorem hinv_bindAll : ∀ (bs : List (Nat × String)) (h h' : Heap) (gS gK : KGraph) (rest : List KGraph) (hds : List Nat), HInv h →
    h.w.stack = gS :: gK :: rest →
    (∀ b ∈ bs, ∀ n, gS.names.lookup b.2 = some n →
      ((h.w.node n).op = .IN → (h.w.node n).ins = []) ∧ ((h.w.node n).op ≠ .IN → (h.w.node n).outs = [])) →
    h.bindAll gK.id gS.id bs = .ok (h', hds) → HInv h' ∧ ∃ S K, h'.w.stack = S :: K :: rest
  | [], h, h', _, _, _, hds, hi, hst, _, he => by
    unfold Heap.bindAll at he
    injection he with he
    injection he with h1 h2
    subst h1
    exact ⟨hi, _, _, hst⟩
  | b :: bs, h, h', gS, gK, rest, hds, hi, hst, hcl, he => by
    unfold Heap.bindAll at he
    obtain ⟨⟨w1, hd⟩, h1, h2⟩ := bind_ok he
    obtain ⟨⟨w2, hds'⟩, h3, h4⟩ := bind_ok h2
    injection h4 with h4
    injection h4 with h4 h5
    subst h4
    obtain ⟨hi1, st, e1, e2, e3⟩ := hinv_bindOne hi hst (hcl b (by simp)) h1
    subst e1; subst e2; subst e3
    refine hinv_bindAll bs w1 w2 _ _ _ hds' hi1 st.stack' ?_ h3
    intro b' hb' n hl
    obtain ⟨hl', -⟩ := lookup_filter_ne hl
    exact st.clean hl' (hcl b' (by simp [hb']) n hl')

theorem hinv_transfer {h h' : Heap} (hi : HInv h) (he : h.transfer = .ok h') : HInv h' := by
  unfold Heap.transfer at he
  split at he
  swap
  · cases he
  rename_i S K rest hst
  obtain ⟨w, h1, h2⟩ := bind_ok he
  injection h2 with h2
  have hi' := inv_transfer hi.inv h1
  obtain ⟨e1, e2, e3, e4⟩ := transfer_same h1
  have hSm : S ∈ h.w.stack := by rw [hst]; simp
  have hKm : K ∈ h.w.stack := by rw [hst]; simp
  have hids := hi.inv.st.ids
  rw [hst] at hids
  simp only [List.map_cons, List.pairwise_cons, List.mem_cons] at hids
  have hKS : K.id ≠ S.id := Nat.ne_of_lt (hids.1 _ (Or.inl rfl))
  have hdis : ∀ n, n ∈ h.store S.id → n ∉ h.store K.id := fun n a b =>
    hKS (by rw [← ((hi.store _ _).mp a).2, ((hi.store _ _).mp b).2])
  have hdis2 : ∀ n, n ∈ S.nodes → n ∉ K.nodes := fun n a b => hKS (by rw [one_kernel hi.inv.st hSm hKm a b])
  have f1 : (h.store S.id).filter (· ∈ h.store K.id) = [] := by
    rw [List.filter_eq_nil_iff]; intro n hn; simpa using hdis n hn
  have f2 : S.nodes.filter (· ∈ K.nodes) = [] := by
    rw [List.filter_eq_nil_iff]; intro n hn; simpa using hdis2 n hn
  have f3 : (h.store S.id).filter (· ∉ h.store K.id) = h.store S.id := by
    rw [List.filter_eq_self]; intro n hn; simpa using hdis n hn
  have hkern : ∀ m, (w.node m).kern = if m ∈ S.nodes then K.id else (h.w.node m).kern := by
    intro m
    unfold World.transfer at h1
    rw [hst] at h1
    injection h1 with h1
    rw [← h1]
    dsimp only
    split <;> rfl
  subst h2
  have fr : h.freed ++ h.w.destroys ((h.store S.id).filter (· ∈ h.store K.id)) (S.nodes.filter (· ∈ K.nodes)) = h.freed := by
    rw [f1, f2]; simp [World.destroys]
  refine ⟨hi', ?_, ?_, ?_, ?_, ?_⟩
  · intro k n
    dsimp only
    rw [e3, hkern]
    have hSn := kern_of_mem hi.inv hSm (n := n)
    split
    · rename_i e
      simp only [List.not_mem_nil, false_iff, not_and]
      intro hl
      split
      · rw [e]; exact hKS
      · rename_i hn; intro ek; exact hn (hSn.mpr ⟨hl, ek.trans e⟩)
    · rename_i e
      split
      · rename_i e2
        rw [e2, f3, List.mem_append, hi.store, hi.store]
        constructor
        · rintro (⟨x, y⟩ | x)
          · refine ⟨x, ?_⟩
            split <;> first | rfl | exact y
          · refine ⟨x.1, ?_⟩
            rw [if_pos (hSn.mpr x)]
        · rintro ⟨x, y⟩
          split at y
          · rename_i hn; exact Or.inr (hSn.mp hn)
          · exact Or.inl ⟨x, y⟩
      · rename_i e2
        rw [hi.store]
        constructor
        · rintro ⟨x, y⟩
          refine ⟨x, ?_⟩
          rw [if_neg]
          · exact y
          · intro hn; exact e (by rw [← y, (hSn.mp hn).2])
        · rintro ⟨x, y⟩
          split at y
          · exact absurd y.symm e2
          · exact ⟨x, y⟩
  · intro k
    dsimp only
    split
    · exact List.nodup_nil
    · split
      · rename_i e2
        rw [e2, f3]
        exact (hi.once _).append (hi.once _) fun n a b => hdis n b a
      · exact hi.once k
  · intro o ho
    dsimp only at ho ⊢
    rw [fr] at ho
    obtain ⟨m, x1, x2, x3⟩ := hi.freed o ho
    exact ⟨m, x1, by rw [e1]; exact x2, by rw [e3]; exact x3⟩
  · dsimp only; rw [fr]; exact hi.nodup
  · intro m hm
    dsimp only at hm ⊢
    rw [e3, fr]
    rw [e1] at hm
    exact hi.all m hm

/-- A call that is not the end of an instance creates at most one node and deletes none. -/
theorem exec_creates {F : FloatOps} {w w' : World} {cmd : Cmd} {rs : List Nat} (hi : Inv w) (hc : ∀ bs, cmd ≠ .endInst bs)
    (h : w.exec F cmd = .ok (w', rs)) : (∀ m, m ≠ w.next → (w'.node m).kern = (w.node m).kern) ∧
      ((w'.next = w.next ∧ ∀ m, w'.Live m ↔ w.Live m) ∨ (w'.next = w.next + 1 ∧ ∀ m, w'.Live m ↔ m = w.next ∨ w.Live m)) := by
  cases exec_shape h with
  | new op ty sc name hop e hcm =>
    subst e
    exact ⟨fun m hm => by rw [addNode_node _ _ _ _ hm], Or.inr ⟨rfl, live_addNode _ _ _ (cur_mem hi.st)⟩⟩
  | const ty v n hh _ _ _ =>
    obtain ⟨hk, g, hg, (⟨rfl, -⟩ | ⟨hno, en, ew⟩)⟩ := createOrUseConst_ok hh
    · exact ⟨fun _ _ => rfl, Or.inl ⟨rfl, fun _ => Iff.rfl⟩⟩
    · subst ew
      exact ⟨fun m hm => by rw [addNode_node _ _ _ _ hm], Or.inr ⟨rfl, live_addNode _ _ _ hk⟩⟩
  | op k op data ty l n hop _ hh hl =>
    obtain ⟨-, -, en, -, -, hf, -, -, hlive⟩ := newOp_effect hi hop.isOp.1 hh (by rw [hl]; exact exec_vars h)
    exact ⟨fun m hm => (hf m hm).2.2.2.2.2, Or.inr ⟨en, hlive⟩⟩
  | same a e _ _ _ => subst e; exact ⟨fun _ _ => rfl, Or.inl ⟨rfl, fun _ => Iff.rfl⟩⟩
  | connect a b hh =>
    obtain ⟨e, -⟩ := addChannel_live hh
    subst e
    exact ⟨fun m _ => (link_fields w b a 0 true m).2.2.1, Or.inl ⟨rfl, fun _ => Iff.rfl⟩⟩
  | begin e =>
    subst e
    refine ⟨fun _ _ => rfl, Or.inl ⟨rfl, fun m => ?_⟩⟩
    unfold World.Live
    simp
  | inst bs S K rest hst w1 _ h1 h2 => exact absurd rfl (hc bs)

theorem hexec_simple {F : FloatOps} (h : Heap) {cmd : Cmd} (hc : ∀ bs, cmd ≠ .endInst bs) :
    h.exec F cmd = (h.w.exec F cmd >>= fun p => pure ({ h with
      w := p.1
      store := if h.w.next < p.1.next then
          fun k => if k = (p.1.node h.w.next).kern then h.w.next :: h.store k else h.store k
        else h.store }, p.2)) := by
  cases cmd <;> first | rfl | exact absurd rfl (hc _)

theorem hinv_exec {F : FloatOps} {h h' : Heap} {cmd : Cmd} {rs : List Nat} (hi : HInv h) (hc : Clean h.w cmd)
    (he : h.exec F cmd = .ok (h', rs)) : HInv h' := by
  by_cases hcmd : ∃ bs, cmd = .endInst bs
  · obtain ⟨bs, rfl⟩ := hcmd
    unfold Heap.exec at he
    dsimp only at he
    split at he
    · cases he
    split at he
    swap
    · cases he
    rename_i S K rest hst
    obtain ⟨⟨h1, hds⟩, x1, x2⟩ := bind_ok he
    obtain ⟨h2, x3, x4⟩ := bind_ok x2
    injection x4 with x4
    injection x4 with x4 x5
    subst x4
    exact hinv_transfer (hinv_bindAll bs h h1 S K rest hds hi hst (clean_lookup hst hc) x1).1 x3
  · have hcmd : ∀ bs, cmd ≠ .endInst bs := fun bs e => hcmd ⟨bs, e⟩
    rw [hexec_simple h hcmd] at he
    obtain ⟨⟨w, rs1⟩, x1, x2⟩ := bind_ok he
    injection x2 with x2
    injection x2 with x2 x3
    subst x2
    have hi' := inv_exec hi.inv hc x1
    obtain ⟨hk, (⟨en, live⟩ | ⟨en, live⟩)⟩ := exec_creates hi.inv hcmd x1
    · have : ¬ h.w.next < w.next := by omega
      refine ⟨hi', ?_, ?_, ?_, hi.nodup, ?_⟩
      · intro k n
        dsimp only
        rw [if_neg this, hi.store, live]
        constructor
        · rintro ⟨x, y⟩; exact ⟨x, by rw [hk n (Nat.ne_of_lt (live_lt hi.inv.st x))]; exact y⟩
        · rintro ⟨x, y⟩; exact ⟨x, by rw [hk n (Nat.ne_of_lt (live_lt hi.inv.st x))] at y; exact y⟩
      · intro k; dsimp only; rw [if_neg this]; exact hi.once k
      · intro o ho
        obtain ⟨m, y1, y2, y3⟩ := hi.freed o ho
        exact ⟨m, y1, by dsimp only; omega, fun hl => y3 ((live m).mp hl)⟩
      · intro m hm
        dsimp only at hm ⊢
        rw [live]
        exact hi.all m (by omega)
    · have hlt : h.w.next < w.next := by omega
      have hnl : ¬ h.w.Live h.w.next := fun l => Nat.lt_irrefl _ (live_lt hi.inv.st l)
      refine ⟨hi', ?_, ?_, ?_, hi.nodup, ?_⟩
      · intro k n
        dsimp only
        rw [if_pos hlt, live]
        have old : h.w.Live n → (w.node n).kern = (h.w.node n).kern := fun x => hk n (Nat.ne_of_lt (live_lt hi.inv.st x))
        split
        · rename_i e
          rw [List.mem_cons, hi.store]
          constructor
          · rintro (x | x)
            · exact ⟨Or.inl x, by rw [x, e]⟩
            · exact ⟨Or.inr x.1, by rw [old x.1]; exact x.2⟩
          · rintro ⟨x | x, y⟩
            · exact Or.inl x
            · exact Or.inr ⟨x, by rw [← old x]; exact y⟩
        · rename_i e
          rw [hi.store]
          constructor
          · rintro x; exact ⟨Or.inr x.1, by rw [old x.1]; exact x.2⟩
          · rintro ⟨x | x, y⟩
            · exact absurd (by rw [← y, x]) e
            · exact ⟨x, by rw [← old x]; exact y⟩
      · intro k
        dsimp only
        rw [if_pos hlt]
        split
        · exact List.nodup_cons.mpr ⟨fun hm => hnl ((hi.store _ _).mp hm).1, hi.once k⟩
        · exact hi.once k
      · intro o ho
        obtain ⟨m, y1, y2, y3⟩ := hi.freed o ho
        exact ⟨m, y1, by dsimp only; omega, fun hl => ((live m).mp hl).elim (by omega) y3⟩
      · intro m hm
        dsimp only at hm ⊢
        rw [live]
        by_cases e : m = h.w.next
        · exact Or.inl (Or.inl e)
        · rcases hi.all m (by omega) with x | x
          · exact Or.inl (Or.inr x)
          · exact Or.inr x

theorem hinv_hist {F : FloatOps} {h h' : Heap} (hh : HeapHist F Clean h h') (hi : HInv h) : HInv h' := by
  induction hh with
  | nil => exact hi
  | snoc c _ hp he ih => exact hinv_exec ih hp he

/-- **C85** (no dangling references): at every point of a history, an object that the library has deleted is not part of any graph or
storage: no live node, no variable of a live node, no channel of a live node and no end of such a channel. -/
theorem no_use_after_free {F : FloatOps} {h : Heap} (hh : HeapHist F Clean Heap.init h) :
    (∀ k, ∀ n ∈ h.store k, Obj.var n ∉ h.freed) ∧
    ∀ n, h.w.Live n → Obj.node n ∉ h.freed ∧ Obj.var n ∉ h.freed ∧
      ∀ c, c ∈ (h.w.node n).ins ∨ c ∈ (h.w.node n).outs →
        Obj.chan c ∉ h.freed ∧ Obj.node (h.w.chan c).src ∉ h.freed ∧ Obj.node (h.w.chan c).tgt ∉ h.freed := by
  have hi := hinv_hist hh hinv_init
  have nodeF : ∀ n, h.w.Live n → Obj.node n ∉ h.freed := by
    intro n hl hf
    obtain ⟨m, e, -, hd⟩ := hi.freed _ hf
    injection e with e
    exact hd (e ▸ hl)
  have varF : ∀ n, Obj.var n ∉ h.freed := by
    intro n hf
    obtain ⟨m, e, -⟩ := hi.freed _ hf
    cases e
  have chanF : ∀ c, Obj.chan c ∉ h.freed := by
    intro n hf
    obtain ⟨m, e, -⟩ := hi.freed _ hf
    cases e
  refine ⟨fun _ n _ => varF n, fun n hl => ⟨nodeF n hl, varF n, fun c hc => ⟨chanF c, ?_⟩⟩⟩
  rcases hc with hc | hc
  · obtain ⟨-, e, l, -⟩ := hi.inv.ch.inn n hl c hc
    exact ⟨nodeF _ l, by rw [e]; exact nodeF n hl⟩
  · obtain ⟨-, e, l, -⟩ := hi.inv.ch.out n hl c hc
    exact ⟨by rw [e]; exact nodeF n hl, nodeF _ l⟩

theorem destroys_nodup {w : World} (hi : Inv w) {vars nodes : List Nat} (hv : vars.Nodup) (hn : nodes.Nodup)
    (hl : ∀ n ∈ nodes, w.Live n) : (w.destroys vars nodes).Nodup := by
  unfold World.destroys
  refine List.Nodup.append (hv.map fun a b e => by injection e) ?_ ?_
  · rw [List.nodup_flatMap]
    refine ⟨fun n hnm => ?_, ?_⟩
    · refine List.Nodup.append ((hi.ch.outNd n (hl n hnm)).map fun a b e => by injection e) (List.nodup_singleton _) ?_
      intro o a b
      rw [List.mem_singleton] at b
      subst b
      simp at a
    · refine List.Pairwise.imp_of_mem ?_ hn
      intro a b ha hb hab o h1 h2
      simp only [List.mem_append, List.mem_map, List.mem_singleton] at h1 h2
      rcases h1 with ⟨c, hc, rfl⟩ | rfl
      · rcases h2 with ⟨d, hd, e⟩ | e
        · injection e with e
          subst e
          exact hab (by rw [← (hi.ch.out a (hl a ha) d hc).2.1, (hi.ch.out b (hl b hb) d hd).2.1])
        · cases e
      · rcases h2 with ⟨d, hd, e⟩ | e
        · cases e
        · injection e with e; exact hab e
  · intro o h1 h2
    simp only [List.mem_map, List.mem_flatMap, List.mem_append, List.mem_singleton] at h1 h2
    obtain ⟨n, -, rfl⟩ := h1
    obtain ⟨m, -, ⟨c, -, e⟩ | e⟩ := h2 <;> cases e

/-- **C85** (every object at most once, every node exactly once): at the end of a history in which all instances are complete, the top
kernel is destroyed, its hash sets being enumerated in any order.  Over the whole life of the program no object is deleted twice;
every node ever created is deleted; exactly the variables whose nodes still exist are deleted, and exactly the channels that
still leave (equivalently, enter) a node. -/
theorem freed_exactly_once {F : FloatOps} {h : Heap} {g : KGraph} (hh : HeapHist F Clean Heap.init h) (hg : h.w.stack = [g])
    {vars nodes : List Nat} (hv : vars.Perm (h.store g.id)) (hn : nodes.Perm g.nodes) :
    (h.finally vars nodes).Nodup ∧
    (∀ n, Obj.node n ∈ h.finally vars nodes ↔ n < h.w.next) ∧
    (∀ n, Obj.var n ∈ h.finally vars nodes ↔ n ∈ g.nodes) ∧
    (∀ c, Obj.chan c ∈ h.finally vars nodes ↔ ∃ n ∈ g.nodes, c ∈ (h.w.node n).outs) ∧
    (∀ c, Obj.chan c ∈ h.finally vars nodes ↔ ∃ n ∈ g.nodes, c ∈ (h.w.node n).ins) := by
  have hi := hinv_hist hh hinv_init
  have hgm : g ∈ h.w.stack := by rw [hg]; simp
  have hlive : ∀ n, h.w.Live n ↔ n ∈ g.nodes := by
    intro n; unfold World.Live; rw [hg]; simp
  have hmem : ∀ o, o ∈ h.finally vars nodes ↔ o ∈ h.freed ∨ (∃ n ∈ g.nodes, o = .var n) ∨
      ∃ n ∈ g.nodes, (∃ c ∈ (h.w.node n).outs, o = .chan c) ∨ o = .node n := by
    intro o
    unfold Heap.finally World.destroys
    simp only [List.mem_append, List.mem_map, List.mem_flatMap, List.mem_singleton, hv.mem_iff, hn.mem_iff, hi.store,
      kern_of_mem hi.inv hgm, eq_comm]
  have hchan : ∀ c, Obj.chan c ∈ h.finally vars nodes ↔ ∃ n ∈ g.nodes, c ∈ (h.w.node n).outs := by
    intro c
    rw [hmem]
    constructor
    · rintro (hf | ⟨n, -, e⟩ | ⟨n, hn, ⟨d, hd, e⟩ | e⟩)
      · obtain ⟨m, e, -⟩ := hi.freed _ hf; cases e
      · cases e
      · injection e with e; exact ⟨n, hn, e ▸ hd⟩
      · cases e
    · rintro ⟨n, hn, hc⟩
      exact Or.inr (Or.inr ⟨n, hn, Or.inl ⟨c, hc, rfl⟩⟩)
  refine ⟨?_, ?_, ?_, hchan, ?_⟩
  · refine List.Nodup.append hi.nodup (destroys_nodup hi.inv (hv.nodup_iff.mpr (hi.once _)) (hn.nodup_iff.mpr (hi.inv.st.nodes g hgm))
      fun n x => (hlive n).mpr (hn.mem_iff.mp x)) ?_
    intro o ho ho'
    obtain ⟨m, e, -, hd⟩ := hi.freed o ho
    subst e
    unfold World.destroys at ho'
    simp only [List.mem_append, List.mem_map, List.mem_flatMap, List.mem_singleton] at ho'
    rcases ho' with ⟨n, -, e⟩ | ⟨n, hnm, ⟨c, -, e⟩ | e⟩
    · cases e
    · cases e
    · injection e with e
      exact hd ((hlive m).mpr (hn.mem_iff.mp (e ▸ hnm)))
  · intro n
    rw [hmem]
    constructor
    · rintro (hf | ⟨m, -, e⟩ | ⟨m, hm, ⟨d, hd, e⟩ | e⟩)
      · obtain ⟨m, e, hl, -⟩ := hi.freed _ hf; injection e with e; exact e ▸ hl
      · cases e
      · cases e
      · injection e with e; exact e ▸ live_lt hi.inv.st ((hlive m).mpr hm)
    · intro hlt
      rcases hi.all n hlt with hl | hf
      · exact Or.inr (Or.inr ⟨n, (hlive n).mp hl, Or.inr rfl⟩)
      · exact Or.inl hf
  · intro n
    rw [hmem]
    constructor
    · rintro (hf | ⟨m, hm, e⟩ | ⟨m, hm, ⟨d, hd, e⟩ | e⟩)
      · obtain ⟨m, e, -⟩ := hi.freed _ hf; cases e
      · injection e with e; exact e ▸ hm
      · cases e
      · cases e
    · intro hn; exact Or.inr (Or.inl ⟨n, hn, rfl⟩)
  · intro c
    rw [hchan]
    constructor
    · rintro ⟨n, hn, hc⟩
      obtain ⟨-, -, l, x⟩ := hi.inv.ch.out n ((hlive n).mpr hn) c hc
      exact ⟨_, (hlive _).mp l, x⟩
    · rintro ⟨n, hn, hc⟩
      obtain ⟨-, -, l, x⟩ := hi.inv.ch.inn n ((hlive n).mpr hn) c hc
      exact ⟨_, (hlive _).mp l, x⟩

/-! ### The histories are those of the API -/

theorem hbindAll_world : ∀ (bs : List (Nat × String)) (h : Heap) (K S : Nat),
    (∀ h' hds, h.bindAll K S bs = .ok (h', hds) → h.w.bindAll K S bs = .ok (h'.w, hds)) ∧
    (∀ w' hds, h.w.bindAll K S bs = .ok (w', hds) → ∃ h', h.bindAll K S bs = .ok (h', hds) ∧ h'.w = w')
  | [], h, K, S => by
    constructor
    · intro h' hds he
      injection he with he
      injection he with h1 h2
      subst h1; subst h2
      rfl
    · intro w' hds he
      injection he with he
      injection he with h1 h2
      subst h2
      exact ⟨h, rfl, h1⟩
  | b :: bs, h, K, S => by
    constructor
    · intro h' hds he
      unfold Heap.bindAll at he
      obtain ⟨⟨h1, hd⟩, x1, x2⟩ := bind_ok he
      obtain ⟨⟨h2, hds'⟩, x3, x4⟩ := bind_ok x2
      injection x4 with x4
      injection x4 with x4 x5
      subst x4; subst x5
      unfold Heap.bindOne at x1
      obtain ⟨⟨w1, hd1⟩, y1, y2⟩ := bind_ok x1
      injection y2 with y2
      injection y2 with y2 y3
      subst y3
      have := (hbindAll_world bs h1 K S).1 _ _ x3
      rw [← y2] at this
      unfold World.bindAll
      rw [y1]
      dsimp only [bind, Except.bind]
      rw [this]
      rfl
    · intro w' hds he
      unfold World.bindAll at he
      obtain ⟨⟨w1, hd⟩, x1, x2⟩ := bind_ok he
      obtain ⟨⟨w2, hds'⟩, x3, x4⟩ := bind_ok x2
      injection x4 with x4
      injection x4 with x4 x5
      subst x4; subst x5
      obtain ⟨h2, y1, y2⟩ := (hbindAll_world bs
        { (h.w.bindDeletes K S b).foldl (fun h p => h.deleteNode p.1 p.2) h with w := w1 } K S).2 _ _ x3
      refine ⟨h2, ?_, y2⟩
      unfold Heap.bindAll Heap.bindOne
      rw [x1]
      dsimp only [bind, Except.bind, pure, Except.pure]
      rw [y1]

/-- Keeping account of the heap changes nothing: a call succeeds with the accounts exactly if it does without, with the same effect. -/
theorem heap_exec_world {F : FloatOps} (h : Heap) (cmd : Cmd) :
    (∀ h' rs, h.exec F cmd = .ok (h', rs) → h.w.exec F cmd = .ok (h'.w, rs)) ∧
    (∀ w' rs, h.w.exec F cmd = .ok (w', rs) → ∃ h', h.exec F cmd = .ok (h', rs) ∧ h'.w = w') := by
  by_cases hcmd : ∃ bs, cmd = .endInst bs
  · obtain ⟨bs, rfl⟩ := hcmd
    constructor
    · intro h' rs he
      unfold Heap.exec at he
      unfold World.exec
      dsimp only at he ⊢
      split at he
      · cases he
      rename_i hv
      rw [if_neg hv]
      split at he
      swap
      · cases he
      rename_i S K rest hst
      obtain ⟨⟨h1, hds⟩, x1, x2⟩ := bind_ok he
      obtain ⟨h2, x3, x4⟩ := bind_ok x2
      injection x4 with x4
      injection x4 with x4 x5
      subst x4; subst x5
      rw [hst]
      dsimp only
      rw [(hbindAll_world bs h K.id S.id).1 _ _ x1]
      unfold Heap.transfer at x3
      split at x3
      swap
      · cases x3
      obtain ⟨w2, y1, y2⟩ := bind_ok x3
      injection y2 with y2
      subst y2
      dsimp only [bind, Except.bind]
      rw [y1]
      rfl
    · intro w' rs he
      unfold World.exec at he
      unfold Heap.exec
      dsimp only at he ⊢
      split at he
      · cases he
      rename_i hv
      rw [if_neg hv]
      split at he
      swap
      · cases he
      rename_i S K rest hst
      obtain ⟨⟨w1, hds⟩, x1, x2⟩ := bind_ok he
      obtain ⟨w2, x3, x4⟩ := bind_ok x2
      injection x4 with x4
      injection x4 with x4 x5
      subst x4; subst x5
      obtain ⟨h1, y1, y2⟩ := (hbindAll_world bs h K.id S.id).2 _ _ x1
      rw [hst]
      dsimp only at x3 ⊢
      rw [y1]
      have x3' : h1.w.transfer = .ok w2 := by rw [y2]; exact x3
      have : ∃ h2, h1.transfer = .ok h2 ∧ h2.w = w2 := by
        unfold Heap.transfer
        cases hs : h1.w.stack with
        | nil => unfold World.transfer at x3'; rw [hs] at x3'; cases x3'
        | cons a l =>
          cases l with
          | nil => unfold World.transfer at x3'; rw [hs] at x3'; cases x3'
          | cons b l =>
            dsimp only
            rw [x3']
            exact ⟨_, rfl, rfl⟩
      obtain ⟨h2, z1, z2⟩ := this
      refine ⟨h2, ?_, z2⟩
      dsimp only [bind, Except.bind]
      rw [z1]
      rfl
  · have hcmd : ∀ bs, cmd ≠ .endInst bs := fun bs e => hcmd ⟨bs, e⟩
    rw [hexec_simple h hcmd]
    constructor
    · intro h' rs he
      obtain ⟨⟨w, rs1⟩, x1, x2⟩ := bind_ok he
      injection x2 with x2
      injection x2 with x2 x3
      subst x2; subst x3
      exact x1
    · intro w' rs he
      rw [he]
      exact ⟨_, rfl, rfl⟩

/-- Every history of the API has its accounts. -/
theorem heap_of_hist {F : FloatOps} {P : World → Cmd → Prop} {w : World} (hh : Hist F P World.init w) :
    ∃ h, HeapHist F P Heap.init h ∧ h.w = w := by
  generalize hw0 : World.init = w0 at hh
  induction hh with
  | nil => exact ⟨_, .nil _, hw0⟩
  | snoc c _ hp he ih =>
    obtain ⟨h1, x1, x2⟩ := ih
    subst x2
    obtain ⟨h2, y1, y2⟩ := (heap_exec_world h1 c).2 _ _ he
    exact ⟨h2, .snoc c x1 hp y1, y2⟩

/-! ### An example, and what is not deleted -/

/-- Non-vacuity: the kernel of `ex_finished`, which contains an instance. -/
theorem ex_heap (F : FloatOps) : ∃ h, HeapHist F Clean Heap.init h ∧ h.w = after F exCmds ∧ h.w.stack = [exGraph] := by
  obtain ⟨h, x1, x2⟩ := heap_of_hist ((ex_finished F).1.mono fun _ _ p => p.1.clean)
  exact ⟨h, x1, x2, by rw [x2]; exact (ex_finished F).2.1.only⟩

/-- Leaks: whatever the enumeration, the destruction of that kernel leaves three of its six variables (the shallow variable and the
two ports of the instance) and one of its four channels (the connection of the instance's output) undeleted. -/
theorem ex_leaks (F : FloatOps) : ∃ h, HeapHist F Clean Heap.init h ∧ h.w.stack = [exGraph] ∧ h.w.next = 6 ∧ h.w.nextC = 4 ∧
    ∀ vars nodes, vars.Perm (h.store 0) → nodes.Perm exGraph.nodes →
      (∀ n < 6, Obj.var n ∉ h.finally vars nodes ↔ n ∈ [1, 2, 3]) ∧
      (∀ c < 4, Obj.chan c ∉ h.finally vars nodes ↔ c = 2) := by
  obtain ⟨h, x1, x2, x3⟩ := ex_heap F
  refine ⟨h, x1, x3, by rw [x2]; rfl, by rw [x2]; rfl, fun vars nodes hv hn => ?_⟩
  obtain ⟨-, -, v, c, -⟩ := freed_exactly_once x1 x3 hv hn
  constructor
  · intro n hn
    rw [v]
    match n, hn with
    | 0, _ | 1, _ | 2, _ | 3, _ | 4, _ | 5, _ => decide
  · intro d hd
    rw [c]
    have : (∃ n ∈ exGraph.nodes, d ∈ (h.w.node n).outs) ↔ d ∈ [3] ++ [0, 1] := by
      have e0 : (h.w.node 0).outs = [0, 1] := by rw [x2]; rfl
      have e4 : (h.w.node 4).outs = [3] := by rw [x2]; rfl
      have e5 : (h.w.node 5).outs = [] := by rw [x2]; rfl
      simp [exGraph, e0, e4, e5]
      tauto
    rw [this]
    match d, hd with
    | 0, _ | 1, _ | 2, _ | 3, _ => decide

/-- A list of calls. -/
def Heap.run (F : FloatOps) : Heap → List Cmd → Except Fault Heap
  | h, [] => .ok h
  | h, c :: cs => do
    let (h, _) ← h.exec F c
    h.run F cs

/-- Without `Clean` the first part fails: an instance that reads its own bound output leaves a live node with an input channel whose
source has been deleted, and every later look at that input (`check`, `compile`, `simulate`) reads freed memory. -/
theorem unclean_instance_dangles (F : FloatOps) : ∃ h, Heap.init.run F
    [.input false "x" u8t, .newVar false u8t, .output false "y" u8t, .beginInst, .input false "a" u8t, .output false "r" u8t,
     .output false "s" u8t, .connect 4 3, .connect 5 4, .endInst [(0, "a"), (1, "r"), (2, "s")]] = .ok h ∧
    h.w.Live 2 ∧ ∃ c ∈ (h.w.node 2).ins, Obj.node (h.w.chan c).src ∈ h.freed := by
  refine ⟨_, rfl, ⟨⟨0, [2, 0], [0], [("y", 2), ("x", 0)]⟩, List.mem_singleton.mpr rfl, by decide⟩, 1, by decide, ?_⟩
  show Obj.node 4 ∈ [Obj.node 3, Obj.node 1, Obj.node 4, Obj.node 5]
  decide

end Verif.Dfcxx
