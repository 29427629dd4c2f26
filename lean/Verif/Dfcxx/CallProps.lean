import Verif.Dfcxx.CallSpec
import Verif.Dfcxx.WorldProps
import Verif.Dfcxx.ArithProps
import Verif.Dfcxx.WorldExamples
/-
C60: every call returns what it says, changes nothing else, and is rejected exactly when it should be.
-/
namespace Verif.Dfcxx

/-- What a call that builds an expression may do: return `n`; every existing variable stays as it was. -/
structure Extends (w w' : World) : Prop where
  live : ∀ m, w.Live m → w'.Live m
  same : ∀ m, w.Live m → w'.view m = w.view m

theorem view_ext {w : World} {m : Nat} {op data ty kind name ins} (h1 : (w.node m).op = op) (h2 : (w.node m).data = data)
    (h3 : (w.node m).ty = ty) (h4 : (w.node m).kind = kind) (h5 : (w.node m).name = name) (h6 : insV w m = ins) :
    w.view m = ⟨op, data, ty, kind, name, ins⟩ := by
  subst h1 h2 h3 h4 h5 h6; rfl

theorem view_congr {w w' : World} {m : Nat} (h : FieldsEq (w.node m) (w'.node m)) (hi : insV w' m = insV w m) : w'.view m = w.view m :=
  view_ext h.1 h.2.1 h.2.2.1 h.2.2.2.1 h.2.2.2.2.1 hi

theorem newOp_view {w w' : World} {k n : Nat} {op : OpType} {data : NodeData} {ty : DFType} {l : List Nat} (hi : Inv w)
    (hop : op ≠ .CONST) (hl : ∀ a ∈ l, a < w.next) (h : w.newOp k op data ty l = .ok (w', n)) :
    n = w.next ∧ w'.Live n ∧ w'.view n = ⟨op, data, ty, .stream, "", reads l⟩ ∧ Extends w w' := by
  obtain ⟨e, -, -, -, -, hf, -, -, hlive⟩ := newOp_effect hi hop h hl
  obtain ⟨f1, f2, f3, f4, f5⟩ := newOp_fields hi hop h
  subst e
  refine ⟨rfl, (hlive _).mpr (.inl rfl), view_ext f1 f2 f3 f4 f5 ?_, fun m hm => (hlive m).mpr (.inr hm), fun m hm => ?_⟩
  · rw [insV_newOp hi hop h _ (.inr rfl), if_pos rfl]; rfl
  · have hne := Nat.ne_of_lt (live_lt hi.st hm)
    exact view_congr (hf m hne) (by rw [insV_newOp hi hop h m (.inl hm), if_neg hne])

theorem addNode_view {w : World} (hi : Inv w) {k : Nat} {r : NodeRec} (hk : ∃ g ∈ w.stack, g.id = k) :
    (w.addNode k r).Live w.next ∧ (w.addNode k r).view w.next = ⟨r.op, r.data, r.ty, r.kind, r.name, []⟩ ∧ Extends w (w.addNode k r) := by
  refine ⟨(live_addNode w k r hk _).mpr (.inl rfl), ?_, fun m hm => (live_addNode w k r hk m).mpr (.inr hm), fun m hm => ?_⟩
  · refine view_ext ?_ ?_ ?_ ?_ ?_ ?_
    iterate 5 rw [addNode_new]
    rw [insV_addNode, if_pos rfl]
  · have hne := Nat.ne_of_lt (live_lt hi.st hm)
    unfold World.view
    rw [addNode_node _ _ _ _ hne]
    rfl

theorem createOrUseConst_extends {w w' : World} {ty : DFType} {v : Word} {n : Nat} (hi : Inv w)
    (h : w.createOrUseConst ty v = .ok (w', n)) : w'.IsConst n ty v ∧ Extends w w' := by
  obtain ⟨hk, g, hg, (⟨rfl, hst, hc⟩ | ⟨hno, en, ew⟩)⟩ := createOrUseConst_ok h
  · obtain ⟨hgm, -⟩ := kernel_some hg
    refine ⟨?_, fun _ h => h, fun _ _ => rfl⟩
    unfold World.isConstNode at hc
    split at hc
    · rename_i v' ho hv
      simp only [Bool.and_eq_true, beq_iff_eq] at hc
      exact ⟨⟨g, hgm, ((hi.st.starts g hgm).2 n hst).1⟩, ho, (type_eq_iff _ _).mp hc.1, by rw [hv, hc.2]⟩
    · cases hc
  · subst ew
    obtain ⟨h1, h2, h3⟩ := addNode_view (r := ⟨.CONST, .none, ty, .const v, "", 0, [], []⟩) hi hk
    subst en
    exact ⟨⟨h1, congrArg NodeV.op h2, congrArg NodeV.ty h2, congrArg NodeV.kind h2⟩, h3⟩

theorem bitsRange_eq {i j total : Nat} {l r : Nat} {ty : DFType} (h : bitsRange i j total = some (l, r, ty)) :
    l = max i j ∧ r = min i j ∧ ty = .rawBits ((max i j - min i j + 1) % 65536) ∧ max i j < total := by
  unfold bitsRange at h
  by_cases hij : i > j
  · simp only [hij, if_true] at h
    split at h
    · cases h
    · cases h
      have h1 : max i j = i := by omega
      have h2 : min i j = j := by omega
      rw [h1, h2]
      exact ⟨rfl, rfl, rfl, by omega⟩
  · simp only [hij, if_false] at h
    split at h
    · cases h
    · cases h
      have h1 : max i j = j := by omega
      have h2 : min i j = i := by omega
      rw [h1, h2]
      exact ⟨rfl, rfl, rfl, by omega⟩

/-- **C60.**  In every reachable state, a call that is accepted and creates a node returns one new variable, whose operator, parameters,
type, kind, name and operands (in call order) are those of the table `Cmd.result`; all other variables are unchanged. -/
theorem call_returns {F : FloatOps} {w w' : World} {cmd : Cmd} {rs : List Nat} {v : NodeV} (hist : Hist F Clean World.init w)
    (h : w.exec F cmd = .ok (w', rs)) (hr : cmd.result w = some v) :
    ∃ n, rs = [n] ∧ ¬ w.Live n ∧ w'.Live n ∧ w'.view n = v ∧ Extends w w' := by
  have hi := inv_hist (fun _ _ h => h) hist inv_init
  have hv := exec_vars h
  have fresh : ¬ w.Live w.next := fun l => Nat.lt_irrefl _ (live_lt hi.st l)
  have add : ∀ (r : NodeRec), (Except.ok (w.addNode w.cur r, [w.next]) : Except Fault _) = .ok (w', rs) →
      some (⟨r.op, r.data, r.ty, r.kind, r.name, []⟩ : NodeV) = some v →
      ∃ n, rs = [n] ∧ ¬ w.Live n ∧ w'.Live n ∧ w'.view n = v ∧ Extends w w' := by
    intro r h hr
    cases h; cases hr
    obtain ⟨h1, h2, h3⟩ := addNode_view (r := r) hi (cur_mem hi.st)
    exact ⟨_, rfl, fresh, h1, h2, h3⟩
  have op : ∀ (k : Nat) (o : OpType) (data : NodeData) (ty : DFType) (l : List Nat), l = cmd.vars → o ≠ .CONST →
      retOne (w.newOp k o data ty l) = .ok (w', rs) → (⟨o, data, ty, .stream, "", reads l⟩ : NodeV) = v →
      ∃ n, rs = [n] ∧ ¬ w.Live n ∧ w'.Live n ∧ w'.view n = v ∧ Extends w w' := by
    intro k o data ty l hl ho hh hr
    obtain ⟨n, h1, rfl⟩ := one_ok hh
    obtain ⟨e, e1, e2, e3⟩ := newOp_view hi ho (by rw [hl]; exact hv) h1
    exact ⟨n, rfl, by rw [e]; exact fresh, e1, e2.trans hr, e3⟩
  unfold World.exec at h
  rw [if_neg (by rintro ⟨x, hx, hle⟩; exact absurd (hv x hx) (by omega))] at h
  cases cmd with
  | input sc name ty => exact add _ h (by cases sc <;> exact hr)
  | output sc name ty => exact add _ h (by cases sc <;> exact hr)
  | newVar sc ty => exact add _ h (by cases sc <;> exact hr)
  | const ty c => cases hr
  | bin o a b =>
    simp only [Cmd.result] at hr
    split at hr
    · cases hr
    · rename_i hk
      injection hr with hr
      simp only at h
      have hty : (if o.isComparison = true then DFType.fixed false 1 0 else (w.view a).ty) = streamResultType o (w.node a).ty := rfl
      rw [hty] at hr
      split at h
      · rename_i ho
        have hoc : o ≠ .CONST := by rintro rfl; cases ho
        split at h
        · rename_i x y hx hy
          exact absurd ⟨by show (w.node a).kind.isConst = true; rw [hx]; rfl, by show (w.node b).kind.isConst = true; rw [hy]; rfl⟩ hk
        · exact op _ _ _ _ [a, b] rfl hoc h hr
        · exact op _ _ _ _ [a, b] rfl hoc h hr
      · cases h
  | un o a =>
    simp only [Cmd.result] at hr
    split at hr
    · cases hr
    · rename_i hk
      injection hr with hr
      simp only at h
      split at h
      · rename_i ho
        have hoc : o ≠ .CONST := by rintro rfl; simp at ho
        split at h
        · rename_i x hx
          exact absurd (by show (w.node a).kind.isConst = true; rw [hx]; rfl) hk
        · exact op _ _ _ _ [a] rfl hoc h hr
      · cases h
  | shift left a k =>
    simp only [Cmd.result] at hr
    split at hr
    · cases hr
    · rename_i hk
      injection hr with hr
      simp only at h
      split at h
      · rename_i x hx
        exact absurd (by show (w.node a).kind.isConst = true; rw [hx]; rfl) hk
      · exact op _ _ _ _ [a] rfl (by cases left <;> simp) h hr
  | bits a i j =>
    simp only [Cmd.result] at hr
    injection hr with hr
    simp only at h
    split at h
    · cases h
    · rename_i l r ty hb
      obtain ⟨rfl, rfl, rfl, -⟩ := bitsRange_eq hb
      exact op _ _ _ _ [a] rfl (by simp) h hr
  | cat a b =>
    simp only [Cmd.result] at hr
    injection hr with hr
    refine op _ _ _ _ [a, b] rfl (by simp) h (Eq.trans ?_ hr)
    simp [catType, buildRawBits, u16, World.view]
  | cast a ty same =>
    simp only [Cmd.result] at hr
    cases same with
    | true => cases hr
    | false =>
      injection hr with hr
      exact op _ _ _ _ [a] rfl (by simp) h hr
  | mux c args =>
    cases args with
    | nil => cases hr
    | cons a0 as =>
      simp only [Cmd.result, List.head?_cons, Option.map_some] at hr
      injection hr with hr
      exact op _ _ _ _ (c :: a0 :: as) rfl (by simp) h hr
  | offset a o =>
    simp only [Cmd.result] at hr
    injection hr with hr
    simp only at h
    split at h
    · exact op _ _ _ _ [a] rfl (by simp) h hr
    · cases h
  | connect a b => cases hr
  | beginInst => cases hr
  | endInst bs => cases hr

/-- **C60, the kernel of the new variable** is the one the call belongs to, and no other. -/
theorem call_home {F : FloatOps} {w w' : World} {cmd : Cmd} {rs : List Nat} {v : NodeV} (hist : Hist F Clean World.init w)
    (h : w.exec F cmd = .ok (w', rs)) (hr : cmd.result w = some v) :
    ∃ n, rs = [n] ∧ (w'.node n).kern = cmd.home w ∧ ∀ g ∈ w'.stack, n ∈ g.nodes ↔ g.id = cmd.home w := by
  have hi := inv_hist (fun _ _ h => h) hist inv_init
  have hv := exec_vars h
  have memb : ∀ (k : Nat) (r : NodeRec) (g : KGraph), g ∈ (w.addNode k r).stack → (w.next ∈ g.nodes ↔ g.id = k) := by
    intro k r g hg
    simp only [World.addNode, List.mem_map] at hg
    obtain ⟨g0, hg0, rfl⟩ := hg
    by_cases hk : g0.id = k
    · simp [hk]
    · rw [if_neg hk]
      exact ⟨fun hm => absurd (live_lt hi.st ⟨g0, hg0, hm⟩) (by omega), fun he => absurd he hk⟩
  have add : ∀ (r : NodeRec), (Except.ok (w.addNode w.cur r, [w.next]) : Except Fault _) = .ok (w', rs) →
      ∃ n, rs = [n] ∧ (w'.node n).kern = w.cur ∧ ∀ g ∈ w'.stack, n ∈ g.nodes ↔ g.id = w.cur := by
    intro r h
    cases h
    exact ⟨_, rfl, by rw [addNode_new], fun g hg => memb _ _ g hg⟩
  have op : ∀ (k : Nat) (o : OpType) (data : NodeData) (ty : DFType) (l : List Nat), l = cmd.vars → o ≠ .CONST →
      retOne (w.newOp k o data ty l) = .ok (w', rs) →
      ∃ n, rs = [n] ∧ (w'.node n).kern = k ∧ ∀ g ∈ w'.stack, n ∈ g.nodes ↔ g.id = k := by
    intro k o data ty l hl ho hh
    obtain ⟨n, h1, rfl⟩ := one_ok hh
    obtain ⟨e, -, -, -, hk, -⟩ := newOp_effect hi ho h1 (by rw [hl]; exact hv)
    refine ⟨n, rfl, by rw [e]; exact hk, fun g hg => ?_⟩
    rw [newOp_stack h1] at hg
    rw [e]
    exact memb _ _ g hg
  unfold World.exec at h
  rw [if_neg (by rintro ⟨x, hx, hle⟩; exact absurd (hv x hx) (by omega))] at h
  cases cmd with
  | input sc name ty => exact add _ h
  | output sc name ty => exact add _ h
  | newVar sc ty => exact add _ h
  | const ty c => cases hr
  | bin o a b =>
    simp only at h
    split at h
    · rename_i ho
      have hoc : o ≠ .CONST := by rintro rfl; cases ho
      have hk : ∀ kd, (w.node a).kind = kd → Cmd.home w (.bin o a b) = if kd.isConst = true then (w.node b).kern else (w.node a).kern := by
        intro kd e; subst e; rfl
      cases ha : (w.node a).kind with
      | const x =>
        rw [hk _ ha, if_pos (show (VarKind.const x).isConst = true from rfl)]
        cases hb : (w.node b).kind with
        | const y =>
          simp only [Cmd.result] at hr
          rw [if_pos ⟨by show (w.node a).kind.isConst = true; rw [ha]; rfl, by show (w.node b).kind.isConst = true; rw [hb]; rfl⟩] at hr
          cases hr
        | _ => rw [ha, hb] at h; exact op _ _ _ _ [a, b] rfl hoc h
      | _ =>
        rw [hk _ ha, if_neg (by simp [VarKind.isConst])]
        rw [ha] at h
        cases hb : (w.node b).kind <;> (rw [hb] at h; exact op _ _ _ _ [a, b] rfl hoc h)
    · cases h
  | un o a =>
    simp only at h
    split at h
    · rename_i ho
      have hoc : o ≠ .CONST := by rintro rfl; simp at ho
      split at h
      · rename_i x hx
        simp only [Cmd.result, World.view, hx, VarKind.isConst, if_true] at hr
        cases hr
      · exact op _ _ _ _ [a] rfl hoc h
    · cases h
  | shift left a k =>
    simp only at h
    split at h
    · rename_i x hx
      simp only [Cmd.result, World.view, hx, VarKind.isConst, if_true] at hr
      cases hr
    · exact op _ _ _ _ [a] rfl (by cases left <;> simp) h
  | bits a i j =>
    simp only at h
    split at h
    · cases h
    · exact op _ _ _ _ [a] rfl (by simp) h
  | cat a b => exact op _ _ _ _ [a, b] rfl (by simp) h
  | cast a ty same =>
    cases same with
    | true => cases hr
    | false => exact op _ _ _ _ [a] rfl (by simp) h
  | mux c args =>
    cases args with
    | nil => cases hr
    | cons a0 as => exact op _ _ _ _ (c :: a0 :: as) rfl (by simp) h
  | offset a o =>
    simp only at h
    split at h
    · exact op _ _ _ _ [a] rfl (by simp) h
    · cases h
  | connect a b => cases hr
  | beginInst => cases hr
  | endInst bs => cases hr

/-- **C60, casts to the same type** return their argument and change nothing. -/
theorem cast_same {F : FloatOps} {w w' : World} {a : Nat} {ty : DFType} {rs : List Nat}
    (h : w.exec F (.cast a ty true) = .ok (w', rs)) : w' = w ∧ rs = [a] := by
  unfold World.exec at h
  split at h
  · cases h
  · cases h; exact ⟨rfl, rfl⟩

/-! ### Rejected calls -/

theorem addOperands_no_throw (k t : Nat) : ∀ (l : List Nat) (i : Nat) (w : World), w.addOperands k t i l ≠ .error .throw
  | [], _, w => by simp [World.addOperands]
  | x :: l, i, w => by
    unfold World.addOperands
    cases h : w.addChannel k x t i false with
    | ok w1 => exact addOperands_no_throw k t l (i + 1) w1
    | error e =>
      show (Except.error e : Except Fault World) ≠ _
      intro he; cases he
      unfold World.addChannel at h
      split at h
      · split at h <;> cases h
      · cases h

theorem newOp_no_throw (w : World) (k : Nat) (op : OpType) (data : NodeData) (ty : DFType) (l : List Nat) :
    retOne (w.newOp k op data ty l) ≠ .error .throw := by
  unfold World.newOp
  cases w.kernel k with
  | none => simp [retOne]
  | some g =>
    simp only
    cases h : (w.addNode k ⟨op, data, ty, .stream, "", k, [], []⟩).addOperands k w.next 0 l with
    | ok w1 => simp [retOne, bind, Except.bind, pure, Except.pure]
    | error e =>
      have := addOperands_no_throw k w.next l 0 (w.addNode k ⟨op, data, ty, .stream, "", k, [], []⟩)
      rw [h] at this
      simp only [bind, Except.bind, retOne]
      intro he; cases he; exact this rfl

/-- **C60, C08: bit ranges** are rejected with an exception exactly if a position is outside of the variable. -/
theorem bits_rejected_iff (F : FloatOps) (w : World) {a : Nat} (ha : a < w.next) (i j : Nat) :
    w.exec F (.bits a i j) = .error .throw ↔ (w.view a).ty.totalBits ≤ max (i % 65536) (j % 65536) := by
  unfold World.exec
  rw [if_neg (by rintro ⟨x, hx, hle⟩; simp [Cmd.vars] at hx; omega)]
  simp only
  cases h : bitsRange (u16 i) (u16 j) (w.node a).ty.totalBits with
  | none =>
    refine ⟨fun _ => ?_, fun _ => rfl⟩
    show (w.node a).ty.totalBits ≤ _
    unfold bitsRange u16 at h
    by_cases hij : i % 65536 > j % 65536
    · simp only [hij, if_true] at h
      split at h
      · omega
      · cases h
    · simp only [hij, if_false] at h
      split at h
      · omega
      · cases h
  | some p =>
    obtain ⟨l, r, ty⟩ := p
    simp only
    obtain ⟨-, -, -, h4⟩ := bitsRange_eq h
    refine ⟨fun he => absurd he (newOp_no_throw _ _ _ _ _ _), fun he => ?_⟩
    have he : (w.node a).ty.totalBits ≤ _ := he
    unfold u16 at h4
    omega

/-- **C60: offsets** are rejected with an exception exactly if the variable is not a stream. -/
theorem offset_rejected_iff (F : FloatOps) (w : World) {a : Nat} (ha : a < w.next) (o : Int) :
    w.exec F (.offset a o) = .error .throw ↔ (w.view a).kind ≠ .stream := by
  unfold World.exec
  rw [if_neg (by rintro ⟨x, hx, hle⟩; simp [Cmd.vars] at hx; omega)]
  simp only
  split
  · rename_i hk
    exact ⟨fun he => absurd he (newOp_no_throw _ _ _ _ _ _), fun he => absurd hk he⟩
  · rename_i hk
    exact ⟨fun _ => hk, fun _ => rfl⟩

/-! ### Folding (C06) -/

theorem evaluates_of_processOp {F : FloatOps} {op : OpType} {data : NodeData} {ty : DFType} {args : List Word} {v : Word}
    (sh : (⟨op, data, ty, .stream, "", args.map fun _ => (0, false)⟩ : NodeV).Shape) (hm : op ≠ .MUX)
    (h : processOp F ⟨op, data, ty, .stream, "", args.map fun _ => (0, false)⟩ (fun _ => .error .throw) args = .val v) :
    Evaluates F op data ty args v :=
  (processOp_iff_means F _ sh _ args (by simp) (by rintro ⟨h, -⟩; exact hm h) v).mp h

theorem fold_un_value {F : FloatOps} {op : OpType} {ty : DFType} (h : op = .NOT ∨ (op = .NEG ∧ ty.isRawBits = false)) {x v : Word}
    (hv : foldUnary F op ty x = some (.ok v)) : Evaluates F op .none ty [x] v := by
  refine evaluates_of_processOp ?_ ?_ ?_
  · rcases h with rfl | ⟨rfl, -⟩ <;> constructor <;> simp [OpType.isComparison]
  · rcases h with rfl | ⟨rfl, -⟩ <;> simp
  · rcases h with rfl | ⟨rfl, h⟩
    · simp only [foldUnary, Option.some.injEq, Except.ok.injEq] at hv
      subst hv; rfl
    · simp only [foldUnary, Option.some.injEq] at hv
      rcases ty with ⟨_ | _, _, _⟩ | _ | _ <;> simp [DFType.isRawBits] at h <;>
        simp [processOp, simKind, kindByType, R.ofExcept] at hv ⊢ <;> rw [hv]

theorem fold_shift_value {F : FloatOps} {left : Bool} {ty : DFType} {x v : Word} {k : Nat}
    (hv : (if left then evalShl x k else evalShr x k) = .ok v) :
    Evaluates F (if left then .SHL else .SHR) (.bitShift k) ty [x] v := by
  refine evaluates_of_processOp ?_ ?_ ?_
  · cases left <;> constructor <;> simp [OpType.isComparison]
  · cases left <;> simp
  · cases left <;> simp only [if_true, if_false, Bool.false_eq_true] at hv ⊢ <;> simp [processOp, hv, R.ofExcept]

theorem fold_bin_value {F : FloatOps} {op : OpType} {ty : DFType} (h : FoldsLikeSimulator op ty) {x y v : Word}
    (hv : foldBinary F op ty x y = some (.ok v)) : Evaluates F op .none (if op.isComparison then .fixed false 1 0 else ty) [x, y] v := by
  have hs : (⟨op, .none, if op.isComparison then .fixed false 1 0 else ty, .stream, "", [x, y].map fun _ => (0, false)⟩ : NodeV).Shape := by
    unfold FoldsLikeSimulator at h
    cases op <;> simp [OpType.isArith, OpType.isBitwise, OpType.isComparison] at h <;> constructor <;>
      simp [OpType.isComparison, buildBool, buildFixed, u16]
  refine evaluates_of_processOp hs ?_ ?_
  · unfold FoldsLikeSimulator at h
    rintro rfl; simp [OpType.isArith, OpType.isBitwise, OpType.isComparison] at h
  · have key : ∃ r, foldBinary F op ty x y = some r ∧ processOp F (binNode op ty) (fun _ => .error .throw) [x, y] = R.ofExcept r := by
      rcases h with h | h | ⟨h, i, f, rfl⟩
      · obtain ⟨r, h1, h2, -⟩ := fold_agrees_with_simulation F op ty x y (fun _ => .error .throw) (.inl h); exact ⟨r, h1, h2⟩
      · obtain ⟨r, h1, h2, -⟩ := fold_agrees_with_simulation F op ty x y (fun _ => .error .throw) (.inr h); exact ⟨r, h1, h2⟩
      · exact fold_comparison_value_unsigned_partial F op i f x y _ h
    obtain ⟨r, h1, h2⟩ := key
    rw [hv] at h1
    cases h1
    have e : processOp F ⟨op, .none, if op.isComparison then .fixed false 1 0 else ty, .stream, "", [x, y].map fun _ => (0, false)⟩
        (fun _ => .error .throw) [x, y] = processOp F (binNode op ty) (fun _ => .error .throw) [x, y] := rfl
    rw [e, h2]; rfl

/-- **C06 for calls, binary operators**: an operator on two constants returns a constant of the left operand's type; where folding is
evaluation, its value is the one the simulator computes for the operator.  Nothing else changes. -/
theorem fold_bin {F : FloatOps} {w w' : World} {op : OpType} {a b : Nat} {rs : List Nat} {ta tb : DFType} {x y : Word}
    (hist : Hist F Clean World.init w) (h : w.exec F (.bin op a b) = .ok (w', rs)) (ha : w.IsConst a ta x) (hb : w.IsConst b tb y) :
    ∃ n v, rs = [n] ∧ w'.IsConst n ta v ∧ Extends w w' ∧
      (FoldsLikeSimulator op ta → Evaluates F op .none (if op.isComparison then .fixed false 1 0 else ta) [x, y] v) := by
  have hi := inv_hist (fun _ _ h => h) hist inv_init
  unfold World.exec at h
  split at h
  · cases h
  simp only [ha.val, hb.val, ha.ty] at h
  split at h
  · split at h
    · rename_i v hv
      obtain ⟨n, h1, rfl⟩ := one_ok h
      obtain ⟨c1, c2⟩ := createOrUseConst_extends hi h1
      exact ⟨n, v, rfl, c1, c2, fun hf => fold_bin_value hf hv⟩
    · cases h
    · cases h
  · cases h

/-- **C06 for calls, unary operators.** -/
theorem fold_un {F : FloatOps} {w w' : World} {op : OpType} {a : Nat} {rs : List Nat} {ta : DFType} {x : Word}
    (hist : Hist F Clean World.init w) (h : w.exec F (.un op a) = .ok (w', rs)) (ha : w.IsConst a ta x) :
    ∃ n v, rs = [n] ∧ w'.IsConst n ta v ∧ Extends w w' ∧
      (op = .NOT ∨ ta.isRawBits = false → Evaluates F op .none ta [x] v) := by
  have hi := inv_hist (fun _ _ h => h) hist inv_init
  unfold World.exec at h
  split at h
  · cases h
  simp only [ha.val, ha.ty] at h
  split at h
  · rename_i hop
    split at h
    · rename_i v hv
      obtain ⟨n, h1, rfl⟩ := one_ok h
      obtain ⟨c1, c2⟩ := createOrUseConst_extends hi h1
      refine ⟨n, v, rfl, c1, c2, fun hf => fold_un_value ?_ hv⟩
      rcases hop with rfl | rfl
      · exact .inl rfl
      · rcases hf with hf | hf
        · cases hf
        · exact .inr ⟨rfl, hf⟩
    · cases h
    · cases h
  · cases h

/-- **C06 for calls, shifts.** -/
theorem fold_shift {F : FloatOps} {w w' : World} {left : Bool} {a k : Nat} {rs : List Nat} {ta : DFType} {x : Word}
    (hist : Hist F Clean World.init w) (h : w.exec F (.shift left a k) = .ok (w', rs)) (ha : w.IsConst a ta x) :
    ∃ n v, rs = [n] ∧ w'.IsConst n ta v ∧ Extends w w' ∧
      Evaluates F (if left then .SHL else .SHR) (.bitShift (k % 256)) ta [x] v := by
  have hi := inv_hist (fun _ _ h => h) hist inv_init
  unfold World.exec at h
  split at h
  · cases h
  simp only [ha.val, ha.ty] at h
  split at h
  · rename_i v hv
    obtain ⟨n, h1, rfl⟩ := one_ok h
    obtain ⟨c1, c2⟩ := createOrUseConst_extends hi h1
    exact ⟨n, v, rfl, c1, c2, fold_shift_value hv⟩
  · cases h

/-! ### Non-vacuity -/

/-- A program using most calls; every theorem above applies to one of its steps. -/
def callDemo : List Cmd :=
  [.input false "x" u8t, .const u8t 5, .const u8t 7, .bin .SUB 1 2, .un .NOT 1, .shift true 2 3, .bits 0 2 5, .cat 0 6, .offset 0 (-1),
   .bin .LESS 0 1, .mux 9 [0, 1], .shift false 0 3, .cast 0 (.rawBits 8) false]

example (F : FloatOps) : ∃ w, World.init.run F callDemo = .ok w ∧ (w.view 3).kind = .const (-2) ∧ (w.view 4).kind = .const (~~~5) ∧
    (w.view 5).kind = .const 56 ∧ w.view 6 = ⟨.BITS, .bitsRange 5 2, .rawBits 4, .stream, "", [(0, false)]⟩ ∧
    w.view 7 = ⟨.CAT, .none, .rawBits 12, .stream, "", [(0, false), (6, false)]⟩ ∧
    w.view 8 = ⟨.OFFSET, .offset (-1), u8t, .stream, "", [(0, false)]⟩ ∧
    w.view 10 = ⟨.MUX, .muxId 0, u8t, .stream, "", [(9, false), (0, false), (1, false)]⟩ ∧
    w.exec F (.bits 0 2 8) = .error .throw ∧ w.exec F (.offset 1 1) = .error .throw :=
  ⟨_, rfl, rfl, rfl, rfl, rfl, rfl, rfl, rfl, rfl, rfl⟩

theorem hist_of_run {F : FloatOps} {P : World → Cmd → Prop} : ∀ (cs : List Cmd) {w w' : World}, (∀ c ∈ cs, ∀ v, P v c) → w.run F cs = .ok w' →
    ∀ {w0}, Hist F P w0 w → Hist F P w0 w'
  | [], w, w', _, h, w0, h0 => by
    unfold World.run at h; cases h; exact h0
  | c :: cs, w, w', hp, h, w0, h0 => by
    unfold World.run at h
    obtain ⟨⟨w1, rs⟩, h1, h2⟩ := bind_ok h
    exact hist_of_run cs (fun c hc => hp c (List.mem_cons_of_mem _ hc)) h2 (.snoc c h0 (hp c List.mem_cons_self w) h1)

/-- The demonstration program is a history in the sense of the theorems above. -/
example (F : FloatOps) : ∃ w, World.init.run F callDemo = .ok w ∧ Hist F Clean World.init w := by
  refine ⟨_, rfl, hist_of_run (P := Clean) callDemo ?_ rfl (.nil _)⟩
  intro c hc v
  simp only [callDemo, List.mem_cons, List.not_mem_nil, or_false] at hc
  rcases hc with rfl | rfl | rfl | rfl | rfl | rfl | rfl | rfl | rfl | rfl | rfl | rfl | rfl <;> trivial

end Verif.Dfcxx
