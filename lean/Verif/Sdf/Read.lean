import Verif.Sdf.Iso
/-
The text of a scheduled block: it is well formed, and what is read from it is the block with its values renumbered.
-/
namespace Verif.Sdf
open Verif.Dfcxx Verif.Flow Verif.Sched Verif.Text

/-! ### Attributes, types, names -/

theorem sext_intAttr {w : Nat} (hw : 0 < w) {i : Int} (h1 : -2 ^ (w - 1) ≤ i) (h2 : i < 2 ^ (w - 1)) : (intAttr w i).sext = i := by
  obtain ⟨v, rfl⟩ : ∃ v, w = v + 1 := ⟨w - 1, by omega⟩
  simp only [Nat.add_sub_cancel] at h1 h2
  have e : (2 ^ (v + 1) : Int) = 2 * 2 ^ v := by ring
  have hq : (0 : Int) < 2 ^ v := by positivity
  have hcast : ((2 ^ (v + 1) : Nat) : Int) = 2 * 2 ^ v := by push_cast; ring
  show (if 2 * (i % 2 ^ (v + 1)).toNat < 2 ^ (v + 1) then ((i % 2 ^ (v + 1)).toNat : Int) else ((i % 2 ^ (v + 1)).toNat : Int) - 2 ^ (v + 1)) = i
  by_cases hi : 0 ≤ i
  · have em : i % 2 ^ (v + 1) = i := Int.emod_eq_of_lt hi (by omega)
    have ht : (i.toNat : Int) = i := Int.toNat_of_nonneg hi
    simp only [em]
    split
    · exact ht
    · rename_i hn
      refine absurd ?_ hn
      have : ((2 * i.toNat : Nat) : Int) < ((2 ^ (v + 1) : Nat) : Int) := by
        rw [hcast]; push_cast; omega
      exact_mod_cast this
  · have em : i % 2 ^ (v + 1) = i + 2 ^ (v + 1) := by
      rw [← Int.add_emod_right]
      exact Int.emod_eq_of_lt (by omega) (by omega)
    have ht : ((i + 2 ^ (v + 1)).toNat : Int) = i + 2 ^ (v + 1) := Int.toNat_of_nonneg (by omega)
    simp only [em]
    split
    · rename_i hlt
      have : ((2 * (i + 2 ^ (v + 1)).toNat : Nat) : Int) < ((2 ^ (v + 1) : Nat) : Int) := by exact_mod_cast hlt
      rw [hcast] at this
      push_cast at this
      omega
    · rw [ht]; omega

theorem readTy_tyText (t : DFType) : readTy (tyText t) = t := by cases t <;> rfl
theorem readTy_dtyText (t : DTy) : readTy (dtyText t) = t.ty := by simp [dtyText, readTy, readTy_tyText]

theorem readName_nameChars (s : String) : readName (nameChars s) = s := by
  have e : ((nameChars s).map fun c => UInt8.ofNat c.toNat) = s.toByteArray.data.toList := by
    unfold nameChars
    rw [List.map_map]
    conv_rhs => rw [← List.map_id s.toByteArray.data.toList]
    refine List.map_congr_left fun b _ => ?_
    simp only [Function.comp_apply, ofNat_byte]
    simp
  unfold readName
  rw [e]
  have e2 : (⟨s.toByteArray.data.toList.toArray⟩ : ByteArray) = s.toByteArray := by
    cases s.toByteArray
    simp
  simp only [e2]
  have : String.fromUTF8? s.toByteArray = some s := by
    unfold String.fromUTF8?
    rw [dif_pos (by first | exact s.isValidUTF8 | (rw [ByteArray.validateUTF8_eq_true_iff]; exact s.isValidUTF8))]
    rfl
  rw [this]
  rfl

/-! ### One operation -/

/-- Operations with a latency attribute. -/
def hasLat (k : DKind) : Bool := (unitOf k).isSome

theorem read_op {k : DKind} {t : DTy} {a : DAttr} {xs : List Nat} {st : Stmt} {l : Int} (h : stmtText (.op k t a xs) = some st)
    (hc : Created (.op k t a xs)) (hl : -2 ^ 31 ≤ l ∧ l < 2 ^ 31) :
    readStmt (withLat l st) = some (.op ⟨k, t.ty, a, xs⟩ (if hasLat k then l else 0)) := by
  have hli : (intAttr 32 l).sext = l := sext_intAttr (by decide) hl.1 hl.2
  have hc2 := hc.2
  unfold stmtText at h
  dsimp only at h
  split at h
  all_goals first
    | (cases h
       simp [withLat, readStmt, readTy_tyText, readTy_dtyText, readName_nameChars, hasLat, unitOf, readSched1, readShift, hli]
       done)
    | skip
  · rename_i o x
    cases h
    have := hc2 o (by simp)
    simp only [if_true] at this
    have e : (intAttr 64 o).sext = o := sext_intAttr (by decide) this.1 this.2
    simp [withLat, readStmt, readTy_dtyText, hasLat, unitOf, e]
  · rename_i n x
    cases h
    have := hc2 n (by simp)
    simp only [reduceCtorEq, if_false] at this
    have e : (intAttr 32 n).sext = n := sext_intAttr (by decide) this.1 this.2
    simp [withLat, readStmt, readTy_dtyText, hasLat, unitOf, e, readShift]
  · rename_i n x
    cases h
    have := hc2 n (by simp)
    simp only [reduceCtorEq, if_false] at this
    have e : (intAttr 32 n).sext = n := sext_intAttr (by decide) this.1 this.2
    simp [withLat, readStmt, readTy_dtyText, hasLat, unitOf, e, readShift]
  · rename_i l' r x
    cases h
    have h1 := hc2 l' (by simp)
    have h2 := hc2 r (by simp)
    simp only [reduceCtorEq, if_false] at h1 h2
    have e1 : (intAttr 32 l').sext = l' := sext_intAttr (by decide) h1.1 h1.2
    have e2 : (intAttr 32 r).sext = r := sext_intAttr (by decide) h2.1 h2.2
    simp [withLat, readStmt, readTy_dtyText, hasLat, unitOf, e1, e2]
  · cases k <;> simp only [sched2Kind, comb2Kind, reduceCtorEq] at h <;>
      (cases h; simp [withLat, readStmt, readTy_dtyText, readSched2, readComb2, hasLat, unitOf, hli])
  · cases h

theorem latOK (l : Int) : LatOK (intAttr 32 l) := ⟨rfl, rfl, (intAttr_ok (w := 32) (by decide) l).2⟩

/-- The operands of an operation other than an offset can be renamed. -/
theorem rename_op {k : DKind} {t : DTy} {a : DAttr} {xs ys : List Nat} {st : Stmt} {tys tys' : List Ty} {l : Int} (h : stmtText (.op k t a xs) = some st)
    (hok : StmtOK tys st) (hk : k ≠ .offset) (hlen : ys.length = xs.length) (hys : ∀ y ∈ ys, y < tys'.length) :
    ∃ st', stmtText (.op k t a ys) = some st' ∧ StmtOK tys' (withLat l st') ∧ (withLat l st').res = st.res := by
  have one : ∀ x : Nat, xs = [x] → ∃ y, ys = [y] ∧ y < tys'.length := by
    rintro x rfl
    obtain ⟨y, rfl⟩ := List.length_eq_one_iff.mp hlen
    exact ⟨y, rfl, hys y (by simp)⟩
  unfold stmtText at h
  dsimp only at h
  split at h
  · exact absurd rfl hk
  · cases h; cases List.length_eq_zero_iff.mp hlen; exact ⟨_, rfl, ⟨hok.1, hok.2.1, by simp⟩, rfl⟩
  · cases h; cases List.length_eq_zero_iff.mp hlen; exact ⟨_, rfl, hok, rfl⟩
  · cases h; cases List.length_eq_zero_iff.mp hlen; exact ⟨_, rfl, ⟨hok.1, hok.2.1, by simp, by simp⟩, rfl⟩
  · cases h; cases List.length_eq_zero_iff.mp hlen; exact ⟨_, rfl, ⟨hok.1, hok.2.1, by simp⟩, rfl⟩
  · cases h; cases List.length_eq_zero_iff.mp hlen; exact ⟨_, rfl, hok, rfl⟩
  · rename_i c alts
    cases h
    cases ys with
    | nil => simp at hlen
    | cons y ys =>
      have hne : ys ≠ [] := by
        have := hok.2.2.1
        rintro rfl
        simp at hlen
        exact this hlen
      exact ⟨_, rfl, ⟨hys y (by simp), fun v hv => hys v (by simp [hv]), hne, hok.2.2.2⟩, rfl⟩
  · obtain ⟨y, rfl, hy⟩ := one _ rfl; cases h; exact ⟨_, rfl, ⟨hy, hok.2⟩, rfl⟩
  · obtain ⟨y, rfl, hy⟩ := one _ rfl; cases h; exact ⟨_, rfl, ⟨latOK l, hy, hok.2.2⟩, rfl⟩
  · obtain ⟨y, rfl, hy⟩ := one _ rfl; cases h; exact ⟨_, rfl, ⟨latOK l, hy, hok.2.2⟩, rfl⟩
  · obtain ⟨y, rfl, hy⟩ := one _ rfl; cases h; exact ⟨_, rfl, ⟨hy, hok.2⟩, rfl⟩
  · obtain ⟨y, rfl, hy⟩ := one _ rfl; cases h; exact ⟨_, rfl, ⟨hy, hok.2⟩, rfl⟩
  · obtain ⟨y, rfl, hy⟩ := one _ rfl; cases h; exact ⟨_, rfl, ⟨hy, hok.2⟩, rfl⟩
  · obtain ⟨y1, y2, rfl⟩ := List.length_eq_two.mp hlen
    have h1 := hys y1 (by simp)
    have h2 := hys y2 (by simp)
    cases k <;> simp only [sched2Kind, comb2Kind, reduceCtorEq] at h <;> cases h <;> first
      | exact ⟨_, rfl, ⟨latOK l, h1, h2, hok.2.2.2⟩, rfl⟩
      | exact ⟨_, rfl, ⟨h1, h2, hok.2.2⟩, rfl⟩
  · cases h

/-- Inputs, outputs and constants have no operands. -/
theorem no_operands {k : DKind} {t : DTy} {a : DAttr} {xs : List Nat} {st : Stmt} (h : stmtText (.op k t a xs) = some st)
    (hk : k = .input ∨ k = .scalarInput ∨ k = .output ∨ k = .scalarOutput ∨ k = .constant) : xs = [] := by
  unfold stmtText at h
  dsimp only at h
  rcases hk with rfl | rfl | rfl | rfl | rfl <;> (split at h <;> first | rfl | simp_all [sched2Kind, comb2Kind])

/-! ### The block the builder made -/

theorem op_mem {prog : List DStmt} : ∀ {v : Nat} {o : OpInfo}, (opsOf prog)[v]? = some o →
    .op o.kind (valueTy prog v) o.attr o.operands ∈ prog ∧ (valueTy prog v).ty = o.ty := by
  induction prog with
  | nil => intro v o h; simp [opsOf] at h
  | cons s r ih =>
    intro v o h
    cases s with
    | op k t a xs =>
      have e1 : opsOf (.op k t a xs :: r) = ⟨k, t.ty, a, xs⟩ :: opsOf r := rfl
      have e2 : valuesOf (.op k t a xs :: r) = t :: valuesOf r := rfl
      rw [e1] at h
      cases v with
      | zero =>
        simp only [List.getElem?_cons_zero, Option.some.injEq] at h
        subst h
        simp [valueTy, e2]
      | succ v =>
        simp only [List.getElem?_cons_succ] at h
        have := ih h
        have e3 : valueTy (.op k t a xs :: r) (v + 1) = valueTy r v := by simp [valueTy, e2]
        rw [e3]
        exact ⟨List.mem_cons_of_mem _ this.1, this.2⟩
    | connect d x =>
      have e1 : opsOf (.connect d x :: r) = opsOf r := rfl
      have e2 : valuesOf (.connect d x :: r) = valuesOf r := rfl
      rw [e1] at h
      have := ih h
      have e3 : valueTy (.connect d x :: r) v = valueTy r v := by simp [valueTy, e2]
      rw [e3]
      exact ⟨List.mem_cons_of_mem _ this.1, this.2⟩

/-- The block before scheduling has a well-formed text. -/
structure ProgOK (prog : List DStmt) : Prop where
  created : ∀ s ∈ prog, Created s
  text    : ∀ k t a xs, .op k t a xs ∈ prog → ∃ st tys, stmtText (.op k t a xs) = some st ∧ StmtOK tys st ∧ st.res = some (dtyText t) ∧ TyOK (dtyText t)

theorem block_progOK {V : Nat → NodeV} {order : List Nat} (hto : TopoOrder V order) (hc : ∀ n ∈ order, Complete V n)
    (hk : ∀ n, KindOK (V n).op (V n).kind) (hd : ∀ n ∈ order, DialectOK V n) (hf : ∀ n ∈ order, FieldsFit (V n))
    (hm : ∀ n ∈ order, (V n).op = .MUX → 2 ≤ (V n).srcs.length) : ProgOK (block V order) := by
  refine ⟨block_created hc hk hf, fun k t a xs hs => ?_⟩
  unfold block at hs
  obtain ⟨n, hn, h⟩ := List.mem_flatMap.mp hs
  have hi : ∀ s ∈ (V n).srcs, s ∈ order := fun s hs => (srcs_in_order hto hn hs).1
  obtain ⟨st, h3, h4, h5⟩ := node_text (V := V) (idx := order.idxOf) (tys := order.map fun n => dtyText (exactOp V order.idxOf n).2.1)
    (hc n hn) (hk n) (hd n hn) (hf n hn) (hm n hn)
    (fun s h => by simp [getElem?_idxOf (hi s h)]) fun s h => ⟨hc s (hi s h), hd s (hi s h), hf s (hi s h)⟩
  have e : .op k t a xs = exactStmt V order.idxOf n := by
    unfold exactStmts at h
    rcases List.mem_cons.mp h with h | h
    · exact h
    · cases hg : getConnection (V n) <;> simp [hg] at h
  have et : t = (exactOp V order.idxOf n).2.1 := by
    unfold exactStmt at e
    injection e
  rw [e]
  refine ⟨st, _, h3, h4, by rw [h5, et], ?_⟩
  have : t.ty = (V n).ty := by rw [et]; exact dty_ty (hc n hn)
  rw [dtyText, this]
  exact tyText_ok (hf n hn)

/-! ### The scheduled block -/

/-- The lines as the reader should find them. -/
def lineS (prog : List DStmt) (X : Prog) (att : Nat → Int) (num : Nat → Nat) : Line → SStmt
  | .con d => match X.defn d with
    | .output (some s) => .connect (num d) (num s)
    | _ => .connect 0 0
  | .val v => match X.defn v with
    | .latency s n => .buffer n (num s) (valTy (valueTy prog) X v).ty
    | d => match (opsOf prog)[v]? with
      | some o => .op ⟨o.kind, o.ty, o.attr, (operandsOf d).map num⟩ (if hasLat o.kind then att v else 0)
      | none => .connect 0 0

/-- What is known of a scheduled block whose text is printed. -/
structure Ready (prog : List DStmt) (X : Prog) (ls : List Line) (att : Nat → Int) : Prop where
  ok    : ProgOK prog
  inv   : TyInv (valueTy prog) (progOf prog) X
  lines : SchedInv X ls
  noOff : ∀ v < X.size, ∀ s k, X.defn v ≠ .offset s k
  atts  : ∀ v, -2 ^ 31 ≤ att v ∧ att v < 2 ^ 31
  bufs  : ∀ v s n, X.defn v = .latency s n → -2 ^ 31 ≤ n ∧ n < 2 ^ 31

section
variable {prog : List DStmt} {X : Prog} {ls : List Line} {att : Nat → Int}

/-- A live value that is not a buffer: its operation and its definition. -/
theorem Ready.orig (R : Ready prog X ls att) {v : Nat} (hv : v ∈ valsOf ls) (hl : ∀ s n, X.defn v ≠ .latency s n) :
    ∃ o, (opsOf prog)[v]? = some o ∧
      match o.kind with
      | .input => X.defn v = .stream
      | .scalarInput => X.defn v = .scalar
      | .constant => X.defn v = .const
      | .output | .scalarOutput => ∃ s, X.defn v = .output s
      | .offset => False
      | _ => ∃ args, X.defn v = .node args ∧ args.length = o.operands.length := by
  obtain ⟨h1, h2⟩ := (R.lines.vals v).mp hv
  have hlt : v < (progOf prog).size := by
    by_contra hn
    obtain ⟨s, n, e, -⟩ := R.inv.fresh v (by omega) h1
    exact hl s n e
  have hlt' : v < (opsOf prog).length := hlt
  refine ⟨(opsOf prog)[v], List.getElem?_eq_getElem hlt', ?_⟩
  have hdi := R.inv.defs v hlt
  have ho : (opsOf prog)[v]? = some (opsOf prog)[v] := List.getElem?_eq_getElem hlt'
  generalize (opsOf prog)[v] = o at ho
  simp only [progOf, ho] at hdi
  cases hk : o.kind <;> simp only [hk] at hdi ⊢ <;> unfold DefInv at hdi
  case input => exact hdi
  case scalarInput => exact hdi
  case constant => exact hdi
  case output => cases hcn : connectedTo prog v <;> rw [hcn] at hdi <;> simp only at hdi <;> first | exact ⟨_, hdi⟩ | exact ⟨_, hdi.choose_spec.1⟩
  case scalarOutput => cases hcn : connectedTo prog v <;> rw [hcn] at hdi <;> simp only at hdi <;> first | exact ⟨_, hdi⟩ | exact ⟨_, hdi.choose_spec.1⟩
  case offset =>
    have key : ∀ d : Def, (d = .erased ∨ ∃ s k, d = .offset s k) → (match d with
        | .output (some s) => ∃ s', X.defn v = .output (some s') ∧ valTy (valueTy prog) X s' = valueTy prog s
        | .node args => ∃ args', X.defn v = .node args' ∧ args'.map (valTy (valueTy prog) X) = args.map (valueTy prog)
        | .offset s k => (∃ s', X.defn v = .offset s' k ∧ s' < v ∧ valTy (valueTy prog) X s' = valueTy prog s) ∨ X.defn v = .erased
        | d => X.defn v = d) → False := by
      rintro d (rfl | ⟨s, k, rfl⟩) h
      · exact h2 h
      · rcases h with ⟨s', e, -⟩ | e
        · exact R.noOff v h1 _ _ e
        · exact h2 e
    refine key _ ?_ hdi
    split
    · exact .inr ⟨_, _, rfl⟩
    · exact .inl rfl
  all_goals
    obtain ⟨args, e1, e2⟩ := hdi
    exact ⟨args, e1, by have := congrArg List.length e2; simpa using this⟩

theorem Ready.tyOK (R : Ready prog X ls att) : ∀ v, v < X.size → TyOK (dtyText (valTy (valueTy prog) X v)) := by
  intro v
  induction v using Nat.strongRecOn with
  | _ v ih =>
    intro hv
    by_cases hl : ∃ s n, X.defn v = .latency s n
    · obtain ⟨s, n, hd⟩ := hl
      rw [valTy_latency R.inv.down hd]
      have := R.inv.down v s n hd
      exact ih s this (by omega)
    · have hl' : ∀ s n, X.defn v ≠ .latency s n := fun s n e => hl ⟨s, n, e⟩
      rw [valTy_other hl']
      have hlt : v < (progOf prog).size := by
        by_contra hn
        obtain ⟨s, n, e, -⟩ := R.inv.fresh v (by omega) hv
        exact hl' s n e
      have hlt' : v < (opsOf prog).length := hlt
      obtain ⟨hm, -⟩ := op_mem (List.getElem?_eq_getElem hlt')
      obtain ⟨st, tys, -, -, -, h⟩ := R.ok.text _ _ _ _ hm
      exact h

/-- The text of one operation: it is well-formed where it stands, and is read as the operation. -/
theorem Ready.line (R : Ready prog X ls att) {num : Nat → Nat} {tys : List Ty} {l : Line} (hl : l ∈ ls) (hn : ∀ r ∈ needs X l, num r < tys.length) :
    ∃ st, lineText prog X att num l = some st ∧ StmtOK tys st ∧
      st.res = (match l with | .val v => some (dtyText (valTy (valueTy prog) X v)) | .con _ => none) ∧
      readStmt st = some (lineS prog X att num l) := by
  cases l with
  | con d =>
    obtain ⟨s, e⟩ := (R.lines.cons d).mp hl
    refine ⟨.connect (num d) (num s), by simp [lineText, e], ⟨hn d (by simp [needs]), hn s (by simp [needs, e, Def.refs])⟩, rfl, ?_⟩
    simp [lineS, e, readStmt]
  | val v =>
    have hv := mem_valsOf.mpr hl
    obtain ⟨h1, h2⟩ := (R.lines.vals v).mp hv
    by_cases hlat : ∃ s n, X.defn v = .latency s n
    · obtain ⟨s, n, e⟩ := hlat
      have hb := R.bufs v s n e
      refine ⟨.latency (intAttr 32 n) (num s) (dtyText (valTy (valueTy prog) X v)), by simp [lineText, e],
        ⟨intAttr_ok (by decide) _, hn s (by simp [needs, e, operandsOf]), R.tyOK v h1⟩, rfl, ?_⟩
      have hx : (intAttr 32 n).sext = n := sext_intAttr (by decide) hb.1 hb.2
      simp [lineS, e, readStmt, hx, readTy_dtyText]
    · have hl' : ∀ s n, X.defn v ≠ .latency s n := fun s n e => hlat ⟨s, n, e⟩
      obtain ⟨o, ho, hsh⟩ := R.orig hv hl'
      obtain ⟨hm, hty⟩ := op_mem ho
      obtain ⟨st, tys0, h3, h4, h5, h6⟩ := R.ok.text _ _ _ _ hm
      have hlen : ((operandsOf (X.defn v)).map num).length = o.operands.length := by
        have no := fun hk => no_operands h3 hk
        cases hk : o.kind <;> simp only [hk] at hsh no <;> first
          | (rw [hsh, no (by simp)]; rfl)
          | (obtain ⟨s, e⟩ := hsh; rw [e, no (by simp)]; rfl)
          | (obtain ⟨args, e, e2⟩ := hsh; rw [e]; simpa [operandsOf] using e2)
          | exact absurd hsh id
      have hko : o.kind ≠ .offset := by
        intro hk
        simp only [hk] at hsh
      obtain ⟨st', h7, h8, h9⟩ := rename_op (l := att v) (ys := (operandsOf (X.defn v)).map num) (tys' := tys) h3 h4 hko hlen (by
        intro y hy
        obtain ⟨r, hr, rfl⟩ := List.mem_map.mp hy
        exact hn r hr)
      have hcr : Created (.op o.kind (valueTy prog v) o.attr ((operandsOf (X.defn v)).map num)) := by
        have := R.ok.created _ hm
        exact this
      have hrd := read_op h7 hcr (R.atts v)
      refine ⟨withLat (att v) st', ?_, h8, ?_, ?_⟩
      · simp only [lineText]
        cases hd : X.defn v with
        | latency s n => exact absurd hd (hl' s n)
        | _ => simp only [ho]; rw [← hd, h7]; rfl
      · show _ = some (dtyText (valTy (valueTy prog) X v))
        rw [h9, h5, valTy_other hl']
      · rw [hrd, hty]
        simp only [lineS]
        cases hd : X.defn v with
        | latency s n => exact absurd hd (hl' s n)
        | _ => simp only [ho]

theorem idxOf_prefix {p q : List Nat} {r : Nat} (h : r ∈ p) : (p ++ q).idxOf r < p.length := by
  rw [List.idxOf_append_of_mem h]
  exact List.idxOf_lt_length_iff.mpr h

/-- The text of the operations from some point on. -/
theorem Ready.suffix (R : Ready prog X ls att) : ∀ q p, ls = p ++ q → Ord X (valsOf p) q →
    ∃ body, q.mapM (lineText prog X att (numIn ls)) = some body ∧
      BlockOK ((valsOf p).map fun v => dtyText (valTy (valueTy prog) X v)) body ∧
      body.mapM readStmt = some (q.map (lineS prog X att (numIn ls)))
  | [], p, _, _ => ⟨[], rfl, trivial, rfl⟩
  | l :: q, p, he, ho => by
    have ho2 : Ord X (valsOf (p ++ [l])) q := by rw [valsOf_append]; exact ho.2
    obtain ⟨body, h1, h2, h3⟩ := R.suffix q (p ++ [l]) (by simp [he]) ho2
    obtain ⟨st, h4, h5, h6, h7⟩ := R.line (num := numIn ls) (tys := (valsOf p).map fun v => dtyText (valTy (valueTy prog) X v)) (l := l) (by simp [he])
      (fun r hr => by
        rw [List.length_map, numIn, he, valsOf_append]
        exact idxOf_prefix (ho.1 r hr))
    refine ⟨st :: body, ?_, ⟨h5, ?_⟩, ?_⟩
    · simp [List.mapM_cons, h4, h1]
    · rw [h6]
      rw [valsOf_append, List.map_append] at h2
      cases l <;> exact h2
    · simp [List.mapM_cons, h7, h3]

end
end Verif.Sdf
