import Verif.Text.Round
import Verif.Flow.Verify
/-
C67 for kernels built through the API: the text of the unscheduled DFCIR of a kernel is read back as the block that was built.

Sources: dfcir_builder.cpp:54-85 (types), 89-352 (attributes of the operations), dfcir_processor.cpp:64-67 (`module.print`).
-/
namespace Verif.Text
open Verif.Dfcxx Verif.Flow

/-! ### Model: what the builder passes to MLIR for the operations of `Dfcxx/Dfcir.lean` -/

/-- Bytes of a name. -/
def nameChars (s : String) : List Char := s.toByteArray.data.toList.map fun b => Char.ofNat b.toNat

/-- DFCIRTypeConverter (dfcir_builder.cpp:56-74). -/
def tyText : DFType → Ty
  | .fixed s i f => .fixed s i f
  | .float e f => .float e f
  | .rawBits b => .rawbits b

/-- Lines 76-83. -/
def dtyText (t : DTy) : Ty := .wrap (match t.wrap with | .stream => .stream | .scalar => .scalar | .const => .const) (tyText t.ty)

/-- The attribute types of constants (lines 137-157): signed or unsigned for fixed-point types, signless for the others. -/
def constSign : DFType → Sign
  | .fixed true _ _ => .signed
  | .fixed false _ _ => .unsigned
  | _ => .signless

/-- `IntegerAttr::get` of a signless type (lines 103-106, 296-336). -/
def intAttr (width : Nat) (v : Int) : IntAttr := ⟨.signless, width, (v % 2 ^ width).toNat⟩

/-- The latency operations are created with (the builders of DFCIROperations.td:156-167, 258-270): -1. -/
def noLatency : IntAttr := intAttr 32 (-1)

def sched2Kind : DKind → Option Sched2
  | .add => some .add
  | .sub => some .sub
  | .mul => some .mul
  | .div => some .div
  | .less => some .less
  | .lessEq => some .lessEq
  | .greater => some .greater
  | .greaterEq => some .greaterEq
  | .eq => some .eq
  | .notEq => some .notEq
  | _ => none

def comb2Kind : DKind → Option Comb2
  | .and => some .and
  | .or => some .or
  | .xor => some .xor
  | .cat => some .cat
  | _ => none

/-- A created operation; the builder passes no control and no source operands (lines 110-133). -/
def stmtText : DStmt → Option Stmt
  | .connect d s => some (.connect d s)
  | .op k t a xs =>
    match k, a, xs with
    | .offset, .ints [o], [x] => some (.offset x (intAttr 64 o) (dtyText t))
    | .input, .name s, [] => some (.input (tyText t.ty) (nameChars s) none)
    | .scalarInput, .name s, [] => some (.scalarInput (tyText t.ty) (nameChars s))
    | .output, .name s, [] => some (.output (tyText t.ty) (nameChars s) none none)
    | .scalarOutput, .name s, [] => some (.scalarOutput (tyText t.ty) (nameChars s) none)
    | .constant, .const w v, [] => some (.constant (tyText t.ty) ⟨constSign t.ty, w, v⟩)
    | .mux, .none, c :: alts => some (.mux c alts (dtyText t))
    | .not, .none, [x] => some (.not x (dtyText t))
    | .neg, .none, [x] => some (.sched1 .neg noLatency x (dtyText t))
    | .cast, .none, [x] => some (.sched1 .cast noLatency x (dtyText t))
    | .shl, .ints [n], [x] => some (.shift .shl x (intAttr 32 n) (dtyText t))
    | .shr, .ints [n], [x] => some (.shift .shr x (intAttr 32 n) (dtyText t))
    | .bits, .ints [l, r], [x] => some (.bits x (intAttr 32 l) (intAttr 32 r) (dtyText t))
    | k, .none, [x, y] => match sched2Kind k, comb2Kind k with
      | some k, _ => some (.sched2 k noLatency x y (dtyText t))
      | _, some k => some (.comb2 k x y (dtyText t))
      | _, _ => none
    | _, _, _ => none

/-- The module of a kernel (dfcir_builder.cpp:31-52). -/
def fileText (name : String) (prog : List DStmt) : Option File := (prog.mapM stmtText).map fun b => ⟨nameChars name, b⟩

/-- What `--out-dfcir` writes before scheduling. -/
def printed (name : String) (prog : List DStmt) : Option (List Char) := (fileText name prog).map print

/-! ### Specification -/

/-- The type parameters and node data fit in the C++ fields (fixed.h:29-30, float.h:22-23, raw_bits.h:22, node.h): `uint16_t` type parameters and bit
positions, `int64_t` offsets, `uint8_t` shifts. -/
def FieldsFit (v : NodeV) : Prop :=
  (match v.ty with
    | .fixed _ i f => i < 2 ^ 16 ∧ f < 2 ^ 16
    | .float e f => e < 2 ^ 8 ∧ f < 2 ^ 8
    | .rawBits b => b < 2 ^ 16) ∧
  match v.data with
  | .offset o => -2 ^ 63 ≤ o ∧ o < 2 ^ 63
  | .bitShift k => k < 2 ^ 8
  | .bitsRange l r => l < 2 ^ 16 ∧ r < 2 ^ 16
  | _ => True

/-! ### Proofs -/

theorem nameChars_ok (s : String) : NameOK (nameChars s) := by
  intro c hc
  obtain ⟨b, -, rfl⟩ := List.mem_map.mp hc
  have hb : b.toNat < 256 := b.toNat_lt
  have hv : b.toNat.isValidChar := Or.inl (by omega)
  simp only [Char.ofNat, hv, dif_pos, Char.toNat, Char.ofNatAux]
  show (UInt32.ofNatLT b.toNat _).toNat < 256
  simpa using hb

theorem ofNat_byte (b : UInt8) : (Char.ofNat b.toNat).toNat = b.toNat := by
  have hb : b.toNat < 256 := b.toNat_lt
  have hv : b.toNat.isValidChar := Or.inl (by omega)
  simp only [Char.ofNat, hv, dif_pos, Char.toNat, Char.ofNatAux]
  show (UInt32.ofNatLT b.toNat _).toNat = _
  simp

theorem nameChars_inj {s t : String} (h : nameChars s = nameChars t) : s = t := by
  unfold nameChars at h
  have := (List.map_inj_right (fun a b hab => by
    have : (Char.ofNat a.toNat).toNat = (Char.ofNat b.toNat).toNat := by rw [hab]
    rw [ofNat_byte, ofNat_byte] at this
    exact UInt8.toNat_inj.mp this)).mp h
  refine String.toByteArray_inj.mp ?_
  cases hs : s.toByteArray; cases ht : t.toByteArray
  rw [hs, ht] at this
  congr 1
  exact Array.toList_inj.mp this

theorem tyText_inj {a b : DFType} (h : tyText a = tyText b) : a = b := by
  cases a <;> cases b <;> simp_all [tyText]

theorem dtyText_inj {a b : DTy} (h : dtyText a = dtyText b) : a = b := by
  obtain ⟨wa, ta⟩ := a
  obtain ⟨wb, tb⟩ := b
  simp only [dtyText, Ty.wrap.injEq] at h
  have := tyText_inj h.2
  cases wa <;> cases wb <;> simp_all

theorem intAttr_ok {w : Nat} (hw : w < 2 ^ 24) (v : Int) : AttrOK (intAttr w v) := by
  refine ⟨hw, ?_⟩
  have h : (0 : Int) < 2 ^ w := by positivity
  have h1 := Int.emod_nonneg v (ne_of_gt h)
  have h2 := Int.emod_lt_of_pos v h
  show (v % 2 ^ w).toNat < 2 ^ w
  have : ((v % 2 ^ w).toNat : Int) < ((2 ^ w : Nat) : Int) := by rw [Int.toNat_of_nonneg h1]; push_cast; exact h2
  exact_mod_cast this

theorem noLatency_ok : LatOK noLatency := ⟨rfl, rfl, (intAttr_ok (w := 32) (by decide) (-1)).2⟩

theorem tyText_ok {v : NodeV} (h : FieldsFit v) : TyOK (tyText v.ty) := by
  have := h.1
  cases hv : v.ty <;> rw [hv] at this <;> simp only [tyText, TyOK] at this ⊢ <;> omega

theorem totalBits_fit {v : NodeV} (h : FieldsFit v) : v.ty.totalBits < 2 ^ 24 := by
  have := h.1
  cases hv : v.ty <;> rw [hv] at this <;> simp only [DFType.totalBits, u16] at this ⊢ <;> omega

theorem convTy_ty (v : NodeV) : (convTy v).ty = v.ty := by unfold convTy; cases v.kind <;> rfl

section
variable {V : Nat → NodeV} {idx : Nat → Nat}

/-- The text of one node. -/
theorem node_text {tys : List Ty} {n : Nat} (hc : Complete V n) (hk : KindOK (V n).op (V n).kind) (hd : DialectOK V n) (hf : FieldsFit (V n))
    (hm : (V n).op = .MUX → 2 ≤ (V n).srcs.length)
    (hs : ∀ s ∈ (V n).srcs, tys[idx s]? = some (dtyText (exactOp V idx s).2.1))
    (hsk : ∀ s ∈ (V n).srcs, Complete V s ∧ DialectOK V s ∧ FieldsFit (V s)) :
    ∃ st, stmtText (exactStmt V idx n) = some st ∧ StmtOK tys st ∧ st.res = some (dtyText (exactOp V idx n).2.1) := by
  have hl : ∀ s ∈ (V n).srcs, idx s < tys.length := fun s h => (List.getElem?_eq_some_iff.mp (hs s h)).1
  have hty : ∀ t : DTy, t.ty = (V n).ty → TyOK (dtyText t) := fun t ht => by rw [dtyText, ht]; exact tyText_ok hf
  have hct : TyOK (dtyText (convTy (V n))) := hty _ (convTy_ty _)
  have bin : ∀ k a b, (V n).op ≠ .OFFSET → binaryKind (V n).op = some k → (V n).srcs = [a, b] →
      ∃ st, stmtText (exactStmt V idx n) = some st ∧ StmtOK tys st ∧ st.res = some (dtyText (exactOp V idx n).2.1) := by
    intro k a b _ hk he
    have ha := hl a (by simp [he])
    have hb := hl b (by simp [he])
    have e : exactStmt V idx n = .op k (convTy (V n)) .none [idx a, idx b] := by simp [exactStmt, exactOp, hk, he]
    have e2 : (exactOp V idx n).2.1 = convTy (V n) := by simp [exactOp, hk]
    rw [e, e2]
    have hkk : (∃ k2, sched2Kind k = some k2) ∨ (sched2Kind k = none ∧ ∃ k2, comb2Kind k = some k2) := by
      cases ho : (V n).op <;> rw [ho] at hk <;> cases hk <;> simp [sched2Kind, comb2Kind]
    have hkn : k ≠ .mux ∧ k ≠ .offset := by cases ho : (V n).op <;> rw [ho] at hk <;> cases hk <;> simp
    rcases hkk with ⟨k2, h2⟩ | ⟨h1, k2, h2⟩
    · refine ⟨.sched2 k2 noLatency (idx a) (idx b) (dtyText (convTy (V n))), ?_, ⟨noLatency_ok, ha, hb, hct⟩, rfl⟩
      cases k <;> simp_all [stmtText, sched2Kind]
    · refine ⟨.comb2 k2 (idx a) (idx b) (dtyText (convTy (V n))), ?_, ⟨ha, hb, hct⟩, rfl⟩
      cases k <;> simp_all [stmtText, sched2Kind, comb2Kind]
  cases ho : (V n).op
  case NONE => exact absurd ho hc.notNone
  case IN =>
    simp only [KindOK, ho] at hk
    rcases hk with h | h
    · have e : exactStmt V idx n = .op .input (convTy (V n)) (.name (V n).name) [] := by simp [exactStmt, exactOp, ho, binaryKind, unaryKind, h]
      have e2 : (exactOp V idx n).2.1 = convTy (V n) := by simp [exactOp, ho, binaryKind, unaryKind]
      rw [e, e2]
      exact ⟨_, rfl, ⟨by rw [convTy_ty]; exact tyText_ok hf, nameChars_ok _, by simp⟩, by simp [Stmt.res, dtyText, convTy, h]⟩
    · have e : exactStmt V idx n = .op .scalarInput (convTy (V n)) (.name (V n).name) [] := by simp [exactStmt, exactOp, ho, binaryKind, unaryKind, h]
      have e2 : (exactOp V idx n).2.1 = convTy (V n) := by simp [exactOp, ho, binaryKind, unaryKind]
      rw [e, e2]
      exact ⟨_, rfl, ⟨by rw [convTy_ty]; exact tyText_ok hf, nameChars_ok _⟩, by simp [Stmt.res, dtyText, convTy, h]⟩
  case OUT =>
    simp only [KindOK, ho] at hk
    rcases hk with h | h
    · have e : exactStmt V idx n = .op .output (convTy (V n)) (.name (V n).name) [] := by simp [exactStmt, exactOp, ho, binaryKind, unaryKind, h]
      have e2 : (exactOp V idx n).2.1 = convTy (V n) := by simp [exactOp, ho, binaryKind, unaryKind]
      rw [e, e2]
      exact ⟨_, rfl, ⟨by rw [convTy_ty]; exact tyText_ok hf, nameChars_ok _, by simp, by simp⟩, by simp [Stmt.res, dtyText, convTy, h]⟩
    · have e : exactStmt V idx n = .op .scalarOutput (convTy (V n)) (.name (V n).name) [] := by simp [exactStmt, exactOp, ho, binaryKind, unaryKind, h]
      have e2 : (exactOp V idx n).2.1 = convTy (V n) := by simp [exactOp, ho, binaryKind, unaryKind]
      rw [e, e2]
      exact ⟨_, rfl, ⟨by rw [convTy_ty]; exact tyText_ok hf, nameChars_ok _, by simp⟩, by simp [Stmt.res, dtyText, convTy, h]⟩
  case CONST =>
    obtain ⟨c, h⟩ := hc.const ho
    have e : exactStmt V idx n = .op .constant (convTy (V n)) (.const (V n).ty.totalBits (constBits (V n).ty c)) [] := by
      simp [exactStmt, exactOp, ho, binaryKind, unaryKind, h]
    have e2 : (exactOp V idx n).2.1 = convTy (V n) := by simp [exactOp, ho, binaryKind, unaryKind, h]
    rw [e, e2]
    exact ⟨_, rfl, ⟨by rw [convTy_ty]; exact tyText_ok hf, totalBits_fit hf, (intAttr_ok (totalBits_fit hf) (constInt (V n).ty c)).2⟩,
      by simp [Stmt.res, dtyText, convTy, h]⟩
  case MUX =>
    obtain ⟨-, c, alts, he⟩ := hc.mux ho
    have e : exactStmt V idx n = .op .mux (convTy (V n)) .none (idx c :: (alts.map idx).reverse) := by
      simp [exactStmt, exactOp, ho, binaryKind, unaryKind, he]
    have e2 : (exactOp V idx n).2.1 = convTy (V n) := by simp [exactOp, ho, binaryKind, unaryKind, he]
    rw [e, e2]
    have h2 := hm ho
    rw [he] at h2
    refine ⟨_, rfl, ⟨hl c (by simp [he]), ?_, ?_, hct⟩, rfl⟩
    · intro v hv
      simp only [List.mem_reverse, List.mem_map] at hv
      obtain ⟨a, ha, rfl⟩ := hv
      exact hl a (by simp [he, ha])
    · cases alts with
      | nil => simp at h2
      | cons a l => simp
  case OFFSET =>
    obtain ⟨⟨o, hdt⟩, hot⟩ := hc.offset ho
    obtain ⟨a, ha⟩ := hc.unary (by simp [ho])
    have e : exactStmt V idx n = .op .offset (convTy (V a)) (.ints [o]) [idx a] := by
      simp [exactStmt, exactOp, ho, binaryKind, unaryKind, ha, hdt]
    have e2 : (exactOp V idx n).2.1 = convTy (V a) := by simp [exactOp, ho, binaryKind, unaryKind, ha, hdt]
    rw [e, e2]
    simp only [DialectOK, ho] at hd
    have hka := hd a (by simp [ha])
    have hsa := hs a (by simp [ha])
    obtain ⟨hca, hda, -⟩ := hsk a (by simp [ha])
    rw [dty_stream hca hda hka] at hsa
    have e3 : convTy (V a) = ⟨.stream, (V a).ty⟩ := by simp [convTy, hka]
    rw [e3]
    exact ⟨_, rfl, ⟨intAttr_ok (by decide) o, hsa, _, rfl⟩, rfl⟩
  case NOT =>
    obtain ⟨a, ha⟩ := hc.unary (by simp [ho])
    have e : exactStmt V idx n = .op .not (convTy (V n)) .none [idx a] := by simp [exactStmt, exactOp, ho, binaryKind, unaryKind, ha]
    have e2 : (exactOp V idx n).2.1 = convTy (V n) := dty_ne_offset (by simp [ho])
    rw [e, e2]
    exact ⟨_, rfl, ⟨hl a (by simp [ha]), hct⟩, rfl⟩
  case NEG =>
    obtain ⟨a, ha⟩ := hc.unary (by simp [ho])
    have e : exactStmt V idx n = .op .neg (convTy (V n)) .none [idx a] := by simp [exactStmt, exactOp, ho, binaryKind, unaryKind, ha]
    have e2 : (exactOp V idx n).2.1 = convTy (V n) := dty_ne_offset (by simp [ho])
    rw [e, e2]
    exact ⟨_, rfl, ⟨noLatency_ok, hl a (by simp [ha]), hct⟩, rfl⟩
  case CAST =>
    obtain ⟨a, ha⟩ := hc.unary (by simp [ho])
    have e : exactStmt V idx n = .op .cast (convTy (V n)) .none [idx a] := by simp [exactStmt, exactOp, ho, binaryKind, unaryKind, ha]
    have e2 : (exactOp V idx n).2.1 = convTy (V n) := dty_ne_offset (by simp [ho])
    rw [e, e2]
    exact ⟨_, rfl, ⟨noLatency_ok, hl a (by simp [ha]), hct⟩, rfl⟩
  case SHL =>
    obtain ⟨a, ha⟩ := hc.unary (by simp [ho])
    obtain ⟨k, hdt⟩ := hc.shift (by simp [ho])
    have e : exactStmt V idx n = .op .shl (convTy (V n)) (.ints [k]) [idx a] := by simp [exactStmt, exactOp, ho, binaryKind, unaryKind, ha, hdt]
    have e2 : (exactOp V idx n).2.1 = convTy (V n) := dty_ne_offset (by simp [ho])
    rw [e, e2]
    exact ⟨_, rfl, ⟨hl a (by simp [ha]), intAttr_ok (by decide) _, hct⟩, rfl⟩
  case SHR =>
    obtain ⟨a, ha⟩ := hc.unary (by simp [ho])
    obtain ⟨k, hdt⟩ := hc.shift (by simp [ho])
    have e : exactStmt V idx n = .op .shr (convTy (V n)) (.ints [k]) [idx a] := by simp [exactStmt, exactOp, ho, binaryKind, unaryKind, ha, hdt]
    have e2 : (exactOp V idx n).2.1 = convTy (V n) := dty_ne_offset (by simp [ho])
    rw [e, e2]
    exact ⟨_, rfl, ⟨hl a (by simp [ha]), intAttr_ok (by decide) _, hct⟩, rfl⟩
  case BITS =>
    obtain ⟨a, ha⟩ := hc.unary (by simp [ho])
    obtain ⟨l, r, hdt⟩ := hc.bits ho
    have e : exactStmt V idx n = .op .bits (convTy (V n)) (.ints [l, r]) [idx a] := by simp [exactStmt, exactOp, ho, binaryKind, unaryKind, ha, hdt]
    have e2 : (exactOp V idx n).2.1 = convTy (V n) := dty_ne_offset (by simp [ho])
    rw [e, e2]
    exact ⟨_, rfl, ⟨hl a (by simp [ha]), intAttr_ok (by decide) _, intAttr_ok (by decide) _, hct⟩, rfl⟩
  all_goals
    obtain ⟨a, b, hab⟩ := hc.binary (by simp [ho])
    exact bin _ a b (by simp [ho]) (by rw [ho]; rfl) hab

theorem mapM_append_some {α β : Type} {f : α → Option β} {l1 l2 : List α} {a b : List β} (h1 : l1.mapM f = some a) (h2 : l2.mapM f = some b) :
    (l1 ++ l2).mapM f = some (a ++ b) := by
  rw [List.mapM_append, h1]
  simp [h2]

theorem BlockOK.append : ∀ {l1 l2 : List Stmt} {tys : List Ty}, BlockOK tys l1 → BlockOK (tys ++ valTys l1) l2 → BlockOK tys (l1 ++ l2)
  | [], l2, tys, _, h => by simpa [valTys] using h
  | s :: l1, l2, tys, h1, h2 => by
    refine ⟨h1.1, h1.2.append ?_⟩
    have : tys ++ s.res.toList ++ valTys l1 = tys ++ valTys (s :: l1) := by
      cases hs : s.res <;> simp [valTys, hs]
    rw [this]
    exact h2

theorem valTys_append (l1 l2 : List Stmt) : valTys (l1 ++ l2) = valTys l1 ++ valTys l2 := by simp [valTys, List.filterMap_append]

/-- The text of the operations from some point on. -/
theorem suffix_text {order : List Nat} (hto : TopoOrder V order) (hc : ∀ n ∈ order, Complete V n) (hk : ∀ n, KindOK (V n).op (V n).kind)
    (hd : ∀ n ∈ order, DialectOK V n) (hf : ∀ n ∈ order, FieldsFit (V n)) (hm : ∀ n ∈ order, (V n).op = .MUX → 2 ≤ (V n).srcs.length) :
    ∀ q p, order = p ++ q → ∃ body, (q.flatMap (exactStmts V order.idxOf)).mapM stmtText = some body ∧
      BlockOK (p.map fun n => dtyText (exactOp V order.idxOf n).2.1) body
  | [], p, _ => ⟨[], rfl, trivial⟩
  | n :: q, p, he => by
    obtain ⟨body, h1, h2⟩ := suffix_text hto hc hk hd hf hm q (p ++ [n]) (by simp [he])
    have hn : n ∈ order := by rw [he]; simp
    have hin : order.idxOf n = p.length := by
      have hnd := hto.nodup
      rw [he] at hnd ⊢
      have : n ∉ p := by
        intro h
        exact (List.disjoint_of_nodup_append hnd) h (by simp)
      simp [List.idxOf_append, this]
    have hs : ∀ s ∈ (V n).srcs, s ∈ order ∧ (p.map fun n => dtyText (exactOp V order.idxOf n).2.1)[order.idxOf s]? =
        some (dtyText (exactOp V order.idxOf s).2.1) := by
      intro s hs
      obtain ⟨h3, h4⟩ := srcs_in_order hto hn hs
      refine ⟨h3, ?_⟩
      rw [hin] at h4
      have h5 := getElem?_idxOf h3
      have h6 : p[order.idxOf s]? = some s := by
        have : (p ++ n :: q)[order.idxOf s]? = some s := by rw [← he]; exact h5
        rwa [List.getElem?_append_left h4] at this
      simp [h6]
    obtain ⟨st, h3, h4, h5⟩ := node_text (V := V) (idx := order.idxOf) (hc n hn) (hk n) (hd n hn) (hf n hn) (hm n hn) (fun s h => (hs s h).2)
      fun s h => ⟨hc s (hs s h).1, hd s (hs s h).1, hf s (hs s h).1⟩
    rw [List.flatMap_cons]
    simp only [List.map_append, List.map_cons, List.map_nil] at h2
    cases hg : getConnection (V n) with
    | none =>
      refine ⟨[st] ++ body, mapM_append_some ?_ h1, BlockOK.append ⟨h4, trivial⟩ ?_⟩
      · simp [exactStmts, hg, h3]
      · simpa [valTys, h5] using h2
    | some s =>
      have hss : s ∈ (V n).srcs := by
        unfold getConnection at hg
        split at hg
        · rename_i x hx; cases hg; simp [NodeV.srcs, hx]
        · cases hg
      refine ⟨[st, .connect (order.idxOf n) (order.idxOf s)] ++ body, mapM_append_some ?_ h1, BlockOK.append ⟨h4, ?_, trivial⟩ ?_⟩
      · simp only [exactStmts, hg]
        rw [List.mapM_cons, h3]
        rfl
      · simp only [h5, StmtOK, Option.toList_some, List.length_append, List.length_map, List.length_cons, List.length_nil, hin]
        have := (srcs_in_order hto hn hss).2
        omega
      · have hv : valTys [st, .connect (order.idxOf n) (order.idxOf s)] = [dtyText (exactOp V order.idxOf n).2.1] := by
          unfold valTys
          rw [List.filterMap_cons, h5]
          rfl
        rw [hv]
        exact h2

theorem block_text {order : List Nat} (hto : TopoOrder V order) (hc : ∀ n ∈ order, Complete V n) (hk : ∀ n, KindOK (V n).op (V n).kind)
    (hd : ∀ n ∈ order, DialectOK V n) (hf : ∀ n ∈ order, FieldsFit (V n)) (hm : ∀ n ∈ order, (V n).op = .MUX → 2 ≤ (V n).srcs.length)
    (name : String) : ∃ f, fileText name (block V order) = some f ∧ FileOK f := by
  obtain ⟨body, h1, h2⟩ := suffix_text hto hc hk hd hf hm order [] rfl
  refine ⟨⟨nameChars name, body⟩, ?_, nameChars_ok _, h2⟩
  unfold fileText block
  rw [h1]
  rfl

end

/-! ### Kernels built through the API -/

section
variable {F : FloatOps} {w : World} {g : KGraph} {G : TopSort.Graph Nat}

/-- **C67 for kernels built through the API.** The unscheduled DFCIR of a finished kernel that passes the dialect's verifier has a text, and parsing the
text gives back the module that was built. -/
theorem api_text_parses (h : Hist F Proper World.init w) (hf : Finished w g) (he : Enumeration w g G) (hd : ∀ n ∈ g.nodes, DialectOK w.view n)
    (hff : ∀ n ∈ g.nodes, FieldsFit (w.view n)) (name : String) {pick : IntAttr → IntAttr → IntAttr} (hp : ∀ a, pick a a = a) :
    ∃ order prog f, TopSort.topSort G = .ok order ∧ buildBody w.view order = .ok prog ∧ fileText name prog = some f ∧ FileOK f ∧
      parse pick (print f) = some f := by
  obtain ⟨order, h1, h2, h3, h4, -⟩ := finished_kernel_is_processable h hf he
  obtain ⟨f, h5, h6⟩ := block_text h3 h4 (fun n => hist_kinds h n) (fun n hn => hd n (h2.mem_iff.mp hn)) (fun n hn => hff n (h2.mem_iff.mp hn))
    (fun n hn ho => finished_mux h hf (h2.mem_iff.mp hn) ho) name
  exact ⟨order, block w.view order, f, h1, buildBody_exact w.view order h3 h4, h5, h6, print_parse hp h6⟩

/-- The kind of operation a statement was made of. -/
private def kindOf : Stmt → DKind
  | .scalarInput _ _ => .scalarInput
  | .scalarOutput _ _ _ => .scalarOutput
  | .input _ _ _ => .input
  | .output _ _ _ _ => .output
  | .constant _ _ => .constant
  | .sched1 .neg _ _ _ => .neg
  | .sched1 .cast _ _ _ => .cast
  | .sched2 k _ _ _ _ => match k with
    | .less => .less
    | .lessEq => .lessEq
    | .greater => .greater
    | .greaterEq => .greaterEq
    | .eq => .eq
    | .notEq => .notEq
    | .add => .add
    | .sub => .sub
    | .mul => .mul
    | _ => .div
  | .comb2 k _ _ _ => match k with
    | .and => .and
    | .or => .or
    | .xor => .xor
    | .cat => .cat
  | .not _ _ => .not
  | .offset _ _ _ => .offset
  | .mux _ _ _ => .mux
  | .bits _ _ _ _ => .bits
  | .shift .shl _ _ _ => .shl
  | _ => .shr

/-- Operands of a statement. -/
private def argsOf : Stmt → List Nat
  | .sched1 _ _ x _ | .not x _ | .offset x _ _ | .bits x _ _ _ | .shift _ x _ _ => [x]
  | .sched2 _ _ x y _ | .comb2 _ x y _ => [x, y]
  | .mux c vs _ => c :: vs
  | _ => []

/-- The attributes: names as bytes, integers by their bits. -/
private def attrOf : Stmt → List Char × List IntAttr
  | .scalarInput _ s | .scalarOutput _ s _ | .input _ s _ | .output _ s _ _ => (s, [])
  | .constant _ v => ([], [v])
  | .offset _ o _ => ([], [o])
  | .bits _ l r _ => ([], [l, r])
  | .shift _ _ n _ => ([], [n])
  | _ => ([], [])

private def encAttr (k : DKind) (t : DTy) : DAttr → List Char × List IntAttr
  | .none => ([], [])
  | .name s => (nameChars s, [])
  | .ints l => ([], l.map (intAttr (if k = .offset then 64 else 32)))
  | .const w v => ([], [⟨constSign t.ty, w, v⟩])

/-- Which attributes an operation has. -/
private def attrShape : DKind → DAttr → Bool
  | .input, .name _ | .output, .name _ | .scalarInput, .name _ | .scalarOutput, .name _ | .constant, .const _ _ => true
  | .offset, .ints _ | .shl, .ints _ | .shr, .ints _ | .bits, .ints _ => true
  | .mux, .none | .add, .none | .sub, .none | .mul, .none | .div, .none | .and, .none | .or, .none | .xor, .none | .not, .none | .neg, .none => true
  | .less, .none | .lessEq, .none | .greater, .none | .greaterEq, .none | .eq, .none | .notEq, .none | .cast, .none | .cat, .none => true
  | _, _ => false

/-- What the builder creates: inputs and outputs of the right kind, integers that fit their attributes. -/
def Created : DStmt → Prop
  | .connect _ _ => True
  | .op k t a _ =>
    (match k with
      | .input | .output => t.wrap = .stream
      | .scalarInput | .scalarOutput => t.wrap = .scalar
      | .constant => t.wrap = .const
      | _ => True) ∧
    match a with
    | .ints l => ∀ i ∈ l, if k = .offset then -2 ^ 63 ≤ i ∧ i < 2 ^ 63 else -2 ^ 31 ≤ i ∧ i < 2 ^ 31
    | _ => True

private theorem text_facts {k : DKind} {t : DTy} {a : DAttr} {xs : List Nat} {s : Stmt} (h : stmtText (.op k t a xs) = some s) (hc : Created (.op k t a xs)) :
    kindOf s = k ∧ argsOf s = xs ∧ s.res = some (dtyText t) ∧ attrShape k a = true ∧ encAttr k t a = attrOf s := by
  obtain ⟨tw, tt⟩ := t
  have hw := hc.1
  unfold stmtText at h
  dsimp only at h
  split at h
  all_goals first
    | (cases h; dsimp only at hw; subst hw; exact ⟨rfl, rfl, rfl, rfl, rfl⟩)
    | (cases h; exact ⟨rfl, rfl, rfl, rfl, rfl⟩)
    | skip
  · cases k <;> simp only [sched2Kind, comb2Kind, reduceCtorEq] at h <;> (cases h; exact ⟨rfl, rfl, rfl, rfl, rfl⟩)
  · cases h

theorem intAttr_inj {w : Nat} {i j : Int} (hi : -2 ^ (w - 1) ≤ i ∧ i < 2 ^ (w - 1)) (hj : -2 ^ (w - 1) ≤ j ∧ j < 2 ^ (w - 1)) (hw : 0 < w)
    (h : intAttr w i = intAttr w j) : i = j := by
  obtain ⟨v, rfl⟩ : ∃ v, w = v + 1 := ⟨w - 1, by omega⟩
  have hp : (0 : Int) < 2 ^ (v + 1) := by positivity
  have e : (i % 2 ^ (v + 1)).toNat = (j % 2 ^ (v + 1)).toNat := by simpa [intAttr] using h
  have e2 : i % 2 ^ (v + 1) = j % 2 ^ (v + 1) := by
    have h1 := Int.emod_nonneg i (ne_of_gt hp)
    have h2 := Int.emod_nonneg j (ne_of_gt hp)
    omega
  have e3 : (2 ^ (v + 1) : Int) ∣ i - j := Int.dvd_of_emod_eq_zero (Int.emod_eq_emod_iff_emod_sub_eq_zero.mp e2)
  simp only [Nat.add_sub_cancel] at hi hj
  have e4 : (2 ^ (v + 1) : Int) = 2 * 2 ^ v := by ring
  obtain ⟨c, hcc⟩ := e3
  rw [e4] at hcc
  have hq : (0 : Int) < 2 ^ v := by positivity
  generalize (2 ^ v : Int) = q at *
  have : c = 0 := by nlinarith [show c ≤ 0 ∨ 1 ≤ c from by omega, show -1 ≥ c ∨ 0 ≤ c from by omega]
  subst this
  omega

private theorem encAttr_inj {k : DKind} {t : DTy} {a b : DAttr} (ha : attrShape k a = true) (hb : attrShape k b = true) {xs ys : List Nat}
    (hca : Created (.op k t a xs)) (hcb : Created (.op k t b ys)) (h : encAttr k t a = encAttr k t b) : a = b := by
  have hints : ∀ l m : List Int, (∀ i ∈ l, if k = .offset then -2 ^ 63 ≤ i ∧ i < 2 ^ 63 else -2 ^ 31 ≤ i ∧ i < 2 ^ 31) →
      (∀ i ∈ m, if k = .offset then -2 ^ 63 ≤ i ∧ i < 2 ^ 63 else -2 ^ 31 ≤ i ∧ i < 2 ^ 31) →
      l.map (intAttr (if k = .offset then 64 else 32)) = m.map (intAttr (if k = .offset then 64 else 32)) → l = m := by
    intro l
    induction l with
    | nil => intro m _ _ h; cases m <;> simp_all
    | cons i l ih =>
      intro m hl hm h
      cases m with
      | nil => simp at h
      | cons j m =>
        simp only [List.map_cons, List.cons.injEq] at h
        have h1 := hl i (by simp)
        have h2 := hm j (by simp)
        have : i = j := by
          by_cases ho : k = .offset
          · simp only [ho, if_true] at h1 h2 h
            exact intAttr_inj (w := 64) h1 h2 (by omega) h.1
          · simp only [ho, if_false] at h1 h2 h
            exact intAttr_inj (w := 32) h1 h2 (by omega) h.1
        rw [this, ih m (fun x hx => hl x (by simp [hx])) (fun x hx => hm x (by simp [hx])) h.2]
  cases a <;> cases b <;> first
    | (cases k <;> simp [attrShape] at ha hb; done)
    | rfl
    | (rename_i s1 s2; simp only [encAttr, Prod.mk.injEq, and_true] at h; rw [nameChars_inj h])
    | (rename_i l m; simp only [encAttr, Prod.mk.injEq, true_and] at h; rw [hints l m hca.2 hcb.2 h])
    | (simp only [encAttr, Prod.mk.injEq, true_and, List.cons.injEq, and_true, IntAttr.mk.injEq] at h; rw [h.1, h.2])

/-- Different operations have different texts. -/
theorem stmtText_inj {a b : DStmt} {s : Stmt} (ha : Created a) (hb : Created b) (h1 : stmtText a = some s) (h2 : stmtText b = some s) : a = b := by
  cases a with
  | connect d x =>
    cases h1
    cases b with
    | connect d' x' => simpa [stmtText] using h2.symm
    | op k t a xs => exact absurd (text_facts h2 hb).2.2.1 (by simp [Stmt.res])
  | op k t a xs =>
    obtain ⟨p1, p2, p3, p4, p5⟩ := text_facts h1 ha
    cases b with
    | connect d x => cases h2; simp [Stmt.res] at p3
    | op k' t' b ys =>
      obtain ⟨q1, q2, q3, q4, q5⟩ := text_facts h2 hb
      have hk : k = k' := p1.symm.trans q1
      have ht : t = t' := dtyText_inj (Option.some.inj (p3.symm.trans q3))
      subst hk ht
      rw [encAttr_inj p4 q4 ha hb (p5.trans q5.symm), ← p2, ← q2]

theorem mapM_text_inj : ∀ {p q : List DStmt} {b : List Stmt}, (∀ s ∈ p, Created s) → (∀ s ∈ q, Created s) → p.mapM stmtText = some b →
    q.mapM stmtText = some b → p = q
  | [], q, b, _, _, h1, h2 => by
    cases q with
    | nil => rfl
    | cons x q =>
      cases h1
      rw [List.mapM_cons] at h2
      cases hx : stmtText x <;> cases hq : q.mapM stmtText <;> simp [hx, hq] at h2
  | x :: p, q, b, hp, hq, h1, h2 => by
    rw [List.mapM_cons] at h1
    cases hx : stmtText x with
    | none => simp [hx] at h1
    | some s =>
      cases hr : p.mapM stmtText with
      | none => simp [hx, hr] at h1
      | some r =>
        simp [hx, hr] at h1
        subst h1
        cases q with
        | nil => cases h2
        | cons y q =>
          rw [List.mapM_cons] at h2
          cases hy : stmtText y with
          | none => simp [hy] at h2
          | some s' =>
            cases hr' : q.mapM stmtText with
            | none => simp [hy, hr'] at h2
            | some r' =>
              simp [hy, hr'] at h2
              obtain ⟨rfl, rfl⟩ := h2
              rw [stmtText_inj (hp x (by simp)) (hq y (by simp)) hx hy,
                mapM_text_inj (fun s hs => hp s (by simp [hs])) (fun s hs => hq s (by simp [hs])) hr hr']

/-- **C67.** The text determines the kernel's name and every operation of its block. -/
theorem printed_inj {p q : List DStmt} {n m : String} {f f' : File} (hp : ∀ s ∈ p, Created s) (hq : ∀ s ∈ q, Created s) (hf : fileText n p = some f)
    (hf' : fileText m q = some f') (ho : FileOK f) (ho' : FileOK f') (h : print f = print f') : n = m ∧ p = q := by
  have := print_inj ho ho' h
  subst this
  unfold fileText at hf hf'
  cases h1 : p.mapM stmtText with
  | none => simp [h1] at hf
  | some b =>
    cases h2 : q.mapM stmtText with
    | none => simp [h2] at hf'
    | some b' =>
      rw [h1] at hf
      rw [h2] at hf'
      simp only [Option.map_some, Option.some.injEq] at hf hf'
      subst hf
      simp only [File.mk.injEq] at hf'
      obtain ⟨e1, rfl⟩ := hf'
      exact ⟨nameChars_inj e1.symm, mapM_text_inj hp hq h1 h2⟩

theorem node_created {V : Nat → NodeV} {idx : Nat → Nat} {n : Nat} (hc : Complete V n) (hk : KindOK (V n).op (V n).kind) (hf : FieldsFit (V n)) :
    Created (exactStmt V idx n) := by
  have hfd := hf.2
  have una : ∀ k a, binaryKind (V n).op = none → unaryKind (V n) = some (k, a) → Created (exactStmt V idx n) := by
    intro k a hb hu
    have e : exactStmt V idx n = .op k (exactOp V idx n).2.1 a ((V n).srcs.map idx) := by simp [exactStmt, exactOp, hb, hu]
    rw [e]
    unfold unaryKind at hu
    split at hu <;> first
      | cases hu
        done
      | (cases hu; exact ⟨trivial, trivial⟩)
      | (rename_i hd
         cases hu
         rw [hd] at hfd
         refine ⟨trivial, ?_⟩
         intro i hi
         simp only [List.mem_cons, List.not_mem_nil, or_false] at hi
         simp only [reduceCtorEq, if_true, if_false]
         omega)
  cases ho : (V n).op
  case NONE => exact absurd ho hc.notNone
  case IN =>
    simp only [KindOK, ho] at hk
    rcases hk with h | h <;> simp [exactStmt, exactOp, ho, binaryKind, unaryKind, h, Created, convTy]
  case OUT =>
    simp only [KindOK, ho] at hk
    rcases hk with h | h <;> simp [exactStmt, exactOp, ho, binaryKind, unaryKind, h, Created, convTy]
  case CONST =>
    obtain ⟨c, h⟩ := hc.const ho
    simp [exactStmt, exactOp, ho, binaryKind, unaryKind, h, Created, convTy]
  case MUX =>
    obtain ⟨-, c, alts, he⟩ := hc.mux ho
    simp [exactStmt, exactOp, ho, binaryKind, unaryKind, he, Created]
  case NOT => exact una _ _ (by rw [ho]; rfl) (by unfold unaryKind; simp only [ho]; rfl)
  case NEG => exact una _ _ (by rw [ho]; rfl) (by unfold unaryKind; simp only [ho]; rfl)
  case CAST => exact una _ _ (by rw [ho]; rfl) (by unfold unaryKind; simp only [ho]; rfl)
  case OFFSET =>
    obtain ⟨⟨o, hd⟩, -⟩ := hc.offset ho
    exact una _ _ (by rw [ho]; rfl) (by unfold unaryKind; simp only [ho, hd]; rfl)
  case SHL =>
    obtain ⟨k, hd⟩ := hc.shift (by simp [ho])
    exact una _ _ (by rw [ho]; rfl) (by unfold unaryKind; simp only [ho, hd]; rfl)
  case SHR =>
    obtain ⟨k, hd⟩ := hc.shift (by simp [ho])
    exact una _ _ (by rw [ho]; rfl) (by unfold unaryKind; simp only [ho, hd]; rfl)
  case BITS =>
    obtain ⟨l, r, hd⟩ := hc.bits ho
    exact una _ _ (by rw [ho]; rfl) (by unfold unaryKind; simp only [ho, hd]; rfl)
  all_goals simp [exactStmt, exactOp, ho, binaryKind, Created]

theorem block_created {V : Nat → NodeV} {order : List Nat} (hc : ∀ n ∈ order, Complete V n) (hk : ∀ n, KindOK (V n).op (V n).kind)
    (hf : ∀ n ∈ order, FieldsFit (V n)) : ∀ s ∈ block V order, Created s := by
  intro s hs
  unfold block at hs
  obtain ⟨n, hn, h⟩ := List.mem_flatMap.mp hs
  unfold exactStmts at h
  rcases List.mem_cons.mp h with rfl | h
  · exact node_created (hc n hn) (hk n) (hf n hn)
  · cases hg : getConnection (V n) <;> simp [hg] at h
    rw [h]
    trivial

/-- **C67.** Two finished kernels with the same text have the same name and the same operations. -/
theorem api_text_inj {F : FloatOps} {w w' : World} {g g' : KGraph} {order order' : List Nat} {prog prog' : List DStmt} {n m : String}
    (h : Hist F Proper World.init w) (h' : Hist F Proper World.init w') (hf : Finished w g) (hf' : Finished w' g')
    {G G' : TopSort.Graph Nat} (he : Enumeration w g G) (he' : Enumeration w' g' G')
    (hd : ∀ n ∈ g.nodes, DialectOK w.view n) (hd' : ∀ n ∈ g'.nodes, DialectOK w'.view n)
    (hff : ∀ n ∈ g.nodes, FieldsFit (w.view n)) (hff' : ∀ n ∈ g'.nodes, FieldsFit (w'.view n))
    (ho : TopSort.topSort G = .ok order) (ho' : TopSort.topSort G' = .ok order')
    (hb : buildBody w.view order = .ok prog) (hb' : buildBody w'.view order' = .ok prog')
    (ht : printed n prog = printed m prog') : n = m ∧ prog = prog' := by
  have key : ∀ {w : World} {g : KGraph} {G : TopSort.Graph Nat} {order : List Nat} {prog : List DStmt} (n : String), Hist F Proper World.init w →
      Finished w g → Enumeration w g G → (∀ n ∈ g.nodes, DialectOK w.view n) → (∀ n ∈ g.nodes, FieldsFit (w.view n)) →
      TopSort.topSort G = .ok order → buildBody w.view order = .ok prog → (∀ s ∈ prog, Created s) ∧ ∃ f, fileText n prog = some f ∧ FileOK f := by
    intro w g G order prog n h hf he hd hff ho hb
    obtain ⟨order2, h1, h2, h3, h4, -⟩ := finished_kernel_is_processable h hf he
    rw [h1] at ho
    cases ho
    rw [buildBody_exact w.view order h3 h4] at hb
    cases hb
    exact ⟨block_created h4 (fun n => hist_kinds h n) fun n hn => hff n (h2.mem_iff.mp hn),
      block_text h3 h4 (fun n => hist_kinds h n) (fun n hn => hd n (h2.mem_iff.mp hn)) (fun n hn => hff n (h2.mem_iff.mp hn))
        (fun n hn ho => finished_mux h hf (h2.mem_iff.mp hn) ho) n⟩
  obtain ⟨c1, f, t1, o1⟩ := key n h hf he hd hff ho hb
  obtain ⟨c2, f', t2, o2⟩ := key m h' hf' he' hd' hff' ho' hb'
  unfold printed at ht
  rw [t1, t2] at ht
  exact printed_inj c1 c2 t1 t2 o1 o2 (Option.some.inj ht)

/-- **C67.** The literal printed for a constant of a fixed-point type is signed like the type, and its number is the constant's value in
that type. -/
theorem const_text {V : Nat → NodeV} {idx : Nat → Nat} {n : Nat} {c : Word} {sg : Bool} {i f : Nat} (ho : (V n).op = .CONST)
    (hk : (V n).kind = .const c) (hty : (V n).ty = .fixed sg i f) (hw : width (.fixed sg i f) < 65536) :
    ∃ a, stmtText (exactStmt V idx n) = some (.constant (.fixed sg i f) a) ∧ a.sign = (if sg then .signed else .unsigned) ∧
      a.width = width (.fixed sg i f) ∧ a.number = number (.fixed sg i f) (pattern (.fixed sg i f) (constInt (.fixed sg i f) c)) := by
  have e : exactStmt V idx n = .op .constant (convTy (V n)) (.const (V n).ty.totalBits (constBits (V n).ty c)) [] := by
    simp [exactStmt, exactOp, ho, binaryKind, unaryKind, hk]
  have et : (DFType.fixed sg i f).totalBits = width (.fixed sg i f) := Nat.mod_eq_of_lt hw
  have ec : (convTy (V n)).ty = .fixed sg i f := by simp [convTy, hk, hty]
  refine ⟨_, by rw [e]; simp only [stmtText, ec, tyText]; rfl, ?_, ?_, ?_⟩
  · simp only [constSign]; cases sg <;> rfl
  · simp only [hty]; exact et
  · simp only [hty, IntAttr.number, IntAttr.sext, constBits, et, number, pattern, constSign, DFType.isSigned]
    cases sg
    · simp
    · simp only [reduceCtorEq, if_false, true_and]
      split <;> split <;> first | rfl | omega

end

end Verif.Text
