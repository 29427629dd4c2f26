import Verif.Text.Syntax
import Mathlib.Tactic.Ring
import Mathlib.Tactic.Linarith
import Mathlib.Data.Nat.Digits.Defs
/-
C67: DFCIR text is read back as the module it was printed from.
-/
namespace Verif.Text

/-! ### Specification -/

/-- Types whose parameters fit in the C++ fields (`unsigned`; MLIR's 24-bit integer widths). -/
def TyOK : Ty → Prop
  | .fixed _ i f => i < 2 ^ 32 ∧ f < 2 ^ 32
  | .float e f => e < 2 ^ 32 ∧ f < 2 ^ 32
  | .rawbits b => b < 2 ^ 32
  | .wrap _ t => TyOK t
  | .int _ w => w < 2 ^ 24

/-- Attributes: the bits of a value of the type. -/
def AttrOK (a : IntAttr) : Prop := a.width < 2 ^ 24 ∧ a.bits < 2 ^ a.width

/-- The latencies the API and the passes create are 32-bit signless integers (DFCIROperations.td:156-167, 258-270, 130-140). -/
def LatOK (a : IntAttr) : Prop := a.sign = .signless ∧ a.width = 32 ∧ a.bits < 2 ^ 32

/-- Names are byte strings. -/
def NameOK (s : List Char) : Prop := ∀ c ∈ s, c.toNat < 256

/-- What a well-formed operation satisfies in a block whose values so far have types `tys`: operands are defined, offsets and conversions yield
streams, an offset has the type of its operand, a counter's limit is a scalar, a multiplexer has a value to choose. -/
def StmtOK (tys : List Ty) : Stmt → Prop
  | .scalarInput ty nm => TyOK ty ∧ NameOK nm
  | .scalarOutput ty nm src => TyOK ty ∧ NameOK nm ∧ ∀ v ∈ src, v < tys.length
  | .input ty nm ctrl => TyOK ty ∧ NameOK nm ∧ ∀ v ∈ ctrl, v < tys.length
  | .output ty nm ctrl src => TyOK ty ∧ NameOK nm ∧ (∀ v ∈ ctrl, v < tys.length) ∧ ∀ v ∈ src, v < tys.length
  | .constant ty v => TyOK ty ∧ AttrOK v
  | .connect d s => d < tys.length ∧ s < tys.length
  | .latency l x res => AttrOK l ∧ x < tys.length ∧ TyOK res
  | .sched1 _ l x res => LatOK l ∧ x < tys.length ∧ TyOK res
  | .sched2 _ l x y res => LatOK l ∧ x < tys.length ∧ y < tys.length ∧ TyOK res
  | .comb2 _ x y res => x < tys.length ∧ y < tys.length ∧ TyOK res
  | .not x res => x < tys.length ∧ TyOK res
  | .offset x o res => AttrOK o ∧ tys[x]? = some res ∧ ∃ t, res = .wrap .stream t
  | .convert x res => x < tys.length ∧ TyOK res ∧ ∃ t, res = .wrap .stream t
  | .mux c vs res => c < tys.length ∧ (∀ v ∈ vs, v < tys.length) ∧ vs ≠ [] ∧ TyOK res
  | .bits x l r res => x < tys.length ∧ AttrOK l ∧ AttrOK r ∧ TyOK res
  | .shift _ x n res => x < tys.length ∧ AttrOK n ∧ TyOK res
  | .counter ty m => TyOK ty ∧ ∃ t, tys[m]? = some (.wrap .scalar t)

/-- Every operation is well-formed where it stands. -/
def BlockOK : List Ty → List Stmt → Prop
  | _, [] => True
  | tys, s :: l => StmtOK tys s ∧ BlockOK (tys ++ s.res.toList) l

def FileOK (f : File) : Prop := NameOK f.name ∧ BlockOK [] f.body

/-! ### Lexical facts: the printed pieces are tokens and do not stick together -/

theorem digits_ok (n : Nat) : Nat.toDigits 10 n ≠ [] ∧ ∀ c ∈ Nat.toDigits 10 n, c.isDigit = true :=
  ⟨Nat.toDigits_ne_nil, fun _ h => Nat.isDigit_of_mem_toDigits (by omega) (by omega) h⟩

theorem numP_ok (n : Nat) : PieceOK (numP n) := digits_ok n

theorem valP_ok (n : Nat) : PieceOK (valP n) := by
  obtain ⟨h1, h2⟩ := digits_ok n
  cases h : Nat.toDigits 10 n with
  | nil => exact absurd h h1
  | cons c r =>
    rw [h] at h2
    exact .inl ⟨c, r, h, h2 c (by simp), fun x hx => h2 x (by simp [hx])⟩

theorem pc_ok {c : Char} (h : c ∈ puncts) : PieceOK (pc c) := h
theorem sp_ok : PieceOK sp := ⟨by decide, by decide⟩

theorem isIdChar_digit {c : Char} (h : c.isDigit = true) : isIdChar c = true := by simp [isIdChar, h]

theorem id_ok (c : Char) (r : List Char) (h1 : isIdStart c = true) (h2 : r.all isIdChar = true) : PieceOK (kw (c :: r)) :=
  ⟨c, r, rfl, h1, by simpa using h2⟩

theorem bool_ok (b : Bool) : PieceOK (kw (boolName b)) := by
  cases b
  · exact id_ok 'f' "alse".toList (by decide) (by decide)
  · exact id_ok 't' "rue".toList (by decide) (by decide)

theorem sign_ok (s : Sign) (w : Nat) : PieceOK (kw (s.name ++ Nat.toDigits 10 w)) := by
  have hd : ∀ c ∈ Nat.toDigits 10 w, isIdChar c = true := fun c hc => isIdChar_digit ((digits_ok w).2 c hc)
  cases s with
  | signless => exact ⟨'i', _, rfl, by decide, hd⟩
  | signed => exact ⟨'s', 'i' :: Nat.toDigits 10 w, rfl, by decide, by simpa using ⟨by decide, hd⟩⟩
  | unsigned => exact ⟨'u', 'i' :: Nat.toDigits 10 w, rfl, by decide, by simpa using ⟨by decide, hd⟩⟩

theorem tyName_ok (c : Char) (r : List Char) (h1 : isSuffixStart c = true) (h0 : c.isDigit = false) (h2 : r.all isSuffixChar = true) :
    PieceOK (.tok (.ty (c :: r))) := .inr ⟨c, r, rfl, h1, h0, by simpa using h2⟩

theorem wrap_ok (w : Wrap) : PieceOK (.tok (.ty w.name)) := by
  cases w
  · exact tyName_ok 'd' "fcir.complex".toList (by decide) (by decide) (by decide)
  · exact tyName_ok 'd' "fcir.stream".toList (by decide) (by decide) (by decide)
  · exact tyName_ok 'd' "fcir.scalar".toList (by decide) (by decide) (by decide)
  · exact tyName_ok 'd' "fcir.const".toList (by decide) (by decide) (by decide)

/-- All pieces of a list are fine. -/
def AllOK (ps : List Piece) : Prop := ∀ q ∈ ps, PieceOK q

@[simp] theorem allOK_nil : AllOK [] := by simp [AllOK]
@[simp] theorem allOK_cons {q : Piece} {ps : List Piece} : AllOK (q :: ps) ↔ PieceOK q ∧ AllOK ps := by simp [AllOK]
@[simp] theorem allOK_append {a b : List Piece} : AllOK (a ++ b) ↔ AllOK a ∧ AllOK b := by
  simp only [AllOK, List.mem_append]
  exact ⟨fun h => ⟨fun q hq => h q (.inl hq), fun q hq => h q (.inr hq)⟩, fun h q hq => hq.elim (h.1 q) (h.2 q)⟩

theorem tyP_ok : ∀ t : Ty, AllOK (tyP t)
  | .fixed s i f => by
    simp only [tyP, allOK_cons, allOK_nil]
    exact ⟨tyName_ok 'd' "fcir.fixed".toList (by decide) (by decide) (by decide), pc_ok (by decide), bool_ok s, pc_ok (by decide), sp_ok, numP_ok i,
      pc_ok (by decide), sp_ok, numP_ok f, pc_ok (by decide), trivial⟩
  | .float e f => by
    simp only [tyP, allOK_cons, allOK_nil]
    exact ⟨tyName_ok 'd' "fcir.float".toList (by decide) (by decide) (by decide), pc_ok (by decide), numP_ok e, pc_ok (by decide), sp_ok, numP_ok f,
      pc_ok (by decide), trivial⟩
  | .rawbits b => by
    simp only [tyP, allOK_cons, allOK_nil]
    exact ⟨tyName_ok 'd' "fcir.rawbits".toList (by decide) (by decide) (by decide), pc_ok (by decide), numP_ok b, pc_ok (by decide), trivial⟩
  | .wrap w t => by
    have := tyP_ok t
    simp only [tyP, allOK_cons, allOK_nil, allOK_append]
    exact ⟨⟨⟨wrap_ok w, pc_ok (by decide), trivial⟩, this⟩, pc_ok (by decide), trivial⟩
  | .int s w => by
    simp only [tyP, allOK_cons, allOK_nil]
    exact ⟨sign_ok s w, trivial⟩

/-- A list that can follow a word: it starts with white space or with punctuation other than a minus sign. -/
def soft : List Piece → Bool
  | [] => true
  | .ws _ :: _ => true
  | .tok (.p c) :: _ => !isSuffixChar c && !isIdChar c && c != '.'
  | _ => false

theorem sep_word {a : Tok} {r : List Piece} (hr : soft r = true) (ha : ∀ c, isSuffixChar c = false → isIdChar c = false → c ≠ '.' → glue a (.p c) = false) :
    sep (.tok a :: r) = sep r := by
  match r, hr with
  | [], _ => rfl
  | .ws _ :: r, _ => simp [sep]
  | .tok (.p c) :: r, h =>
    simp only [soft, Bool.and_eq_true, Bool.not_eq_true', bne_iff_ne, ne_eq] at h
    simp [sep, ha c h.1.1 h.1.2 h.2]

theorem sep_val {n : Nat} {r : List Piece} (hr : soft r = true) : sep (valP n :: r) = sep r := sep_word hr fun _ h _ _ => h
theorem sep_num {n : Nat} {r : List Piece} (hr : soft r = true) : sep (numP n :: r) = sep r :=
  sep_word hr fun c _ _ h => by simpa [glue] using h
theorem sep_kw {s : List Char} {r : List Piece} (hr : soft r = true) : sep (kw s :: r) = sep r := sep_word hr fun _ _ h _ => h
theorem sep_tyName {s : List Char} {r : List Piece} (hr : soft r = true) : sep (.tok (.ty s) :: r) = sep r := sep_word hr fun _ h _ _ => h
theorem sep_str {s : List Char} {r : List Piece} : sep (strP s :: r) = sep r := by
  match r with
  | [] => rfl
  | .ws _ :: r => simp [sep, strP]
  | .tok b :: r => simp [sep, strP, glue]
theorem sep_sp {r : List Piece} : sep (sp :: r) = sep r := rfl
theorem sep_ws {w : List Char} {r : List Piece} : sep (.ws w :: r) = sep r := rfl
theorem sep_pc {c : Char} {r : List Piece} (h1 : c ≠ '-') (h2 : c ≠ ':') : sep (pc c :: r) = sep r := by
  match r with
  | [] => rfl
  | .ws _ :: r => simp [sep, pc]
  | .tok b :: r => cases b <;> simp [sep, pc, glue, h1, h2]
theorem sep_colon {r : List Piece} : sep (pc ':' :: sp :: r) = sep r := rfl
theorem sep_minus {n : Nat} {r : List Piece} : sep (pc '-' :: numP n :: r) = sep (numP n :: r) := by simp [sep, pc, numP, glue]

theorem soft_pc {c : Char} {r : List Piece} (h : isSuffixChar c = false := by decide) (h2 : isIdChar c = false := by decide) (h3 : c ≠ '.' := by decide) :
    soft (pc c :: r) = true := by simp [soft, pc, h, h2, h3]

theorem sep_ty : ∀ (t : Ty) {r : List Piece}, soft r = true → sep (tyP t ++ r) = sep r
  | .fixed s i f, r, h => by
    simp only [tyP, List.cons_append, List.nil_append]
    rw [sep_tyName (soft_pc), sep_pc (by decide) (by decide), sep_kw (soft_pc), sep_pc (by decide) (by decide), sep_sp, sep_num (soft_pc),
      sep_pc (by decide) (by decide), sep_sp, sep_num (soft_pc), sep_pc (by decide) (by decide)]
  | .float e f, r, h => by
    simp only [tyP, List.cons_append, List.nil_append]
    rw [sep_tyName (soft_pc), sep_pc (by decide) (by decide), sep_num (soft_pc), sep_pc (by decide) (by decide), sep_sp, sep_num (soft_pc),
      sep_pc (by decide) (by decide)]
  | .rawbits b, r, h => by
    simp only [tyP, List.cons_append, List.nil_append]
    rw [sep_tyName (soft_pc), sep_pc (by decide) (by decide), sep_num (soft_pc), sep_pc (by decide) (by decide)]
  | .wrap w t, r, h => by
    simp only [tyP, List.cons_append, List.nil_append, List.append_assoc]
    rw [sep_tyName (soft_pc), sep_pc (by decide) (by decide), sep_ty t (soft_pc), sep_pc (by decide) (by decide)]
  | .int s w, r, h => by
    simp only [tyP, List.cons_append, List.nil_append]
    exact sep_kw h

theorem sep_attr (a : IntAttr) {r : List Piece} (h : soft r = true) : sep (attrP a ++ r) = sep r := by
  unfold attrP
  split
  · exact sep_kw h
  · unfold intP
    have e : ∀ {n : Nat}, sep (numP n :: sp :: pc ':' :: sp :: (tyP (.int a.sign a.width) ++ r)) = sep r := by
      intro n
      rw [sep_num rfl, sep_sp, sep_colon, sep_ty _ h]
    split
    · simp only [List.cons_append, List.nil_append, List.append_assoc]
      rw [sep_minus, e]
    · simp only [List.cons_append, List.nil_append, List.append_assoc]
      exact e

theorem attrP_ok (a : IntAttr) : AllOK (attrP a) := by
  unfold attrP
  split
  · simp only [allOK_cons, allOK_nil, and_true]; exact bool_ok _
  · unfold intP
    have h1 := tyP_ok (.int a.sign a.width)
    split <;> simp only [allOK_append, allOK_cons, allOK_nil, and_true] <;>
      simp [h1, numP_ok, sp_ok, pc_ok (show ':' ∈ puncts by decide), pc_ok (show '-' ∈ puncts by decide)]

theorem argP_ok (tys : List Ty) (v : Nat) : AllOK (argP tys v) := by
  simp [argP, valP_ok, sp_ok, pc_ok (show ':' ∈ puncts by decide), tyP_ok]

theorem sep_arg (tys : List Ty) (v : Nat) {r : List Piece} (h : soft r = true) : sep (argP tys v ++ r) = sep r := by
  simp only [argP, List.cons_append, List.nil_append]
  rw [sep_val rfl, sep_sp, sep_colon, sep_ty _ h]


theorem strP_ok {nm : List Char} (h : NameOK nm) : PieceOK (strP nm) := h

theorem kwOK {s : List Char} (h : (match s with | [] => false | c :: r => isIdStart c && r.all isIdChar) = true) : PieceOK (kw s) := by
  cases s with
  | nil => cases h
  | cons c r =>
    simp only [Bool.and_eq_true] at h
    exact id_ok c r h.1 h.2

theorem name_ok (s : Stmt) : PieceOK (kw s.name) := by
  cases s with
  | sched1 k _ _ _ => cases k <;> exact kwOK rfl
  | sched2 k _ _ _ _ => cases k <;> exact kwOK rfl
  | comb2 k _ _ _ => cases k <;> exact kwOK rfl
  | shift k _ _ _ => cases k <;> exact kwOK rfl
  | _ => exact kwOK rfl

theorem soft_sp {r : List Piece} : soft (sp :: r) = true := rfl
theorem soft_ws {w : List Char} {r : List Piece} : soft (.ws w :: r) = true := rfl

theorem srcP_ok (tys : List Ty) (o : Option Nat) : AllOK (srcP tys o) := by
  cases o
  · simp [srcP]
  · simp [srcP, argP_ok, sp_ok, pc_ok (show '<' ∈ puncts by decide), pc_ok (show '=' ∈ puncts by decide)]

theorem ctrlP_ok (tys : List Ty) (o : Option Nat) : AllOK (ctrlP tys o) := by
  cases o
  · simp [ctrlP]
  · simp [ctrlP, argP_ok, sp_ok, pc_ok (show ',' ∈ puncts by decide)]

theorem soft_src (tys : List Ty) (o : Option Nat) {r : List Piece} (h : soft r = true) : soft (srcP tys o ++ r) = true := by
  cases o
  · exact h
  · rfl

theorem soft_ctrl (tys : List Ty) (o : Option Nat) {r : List Piece} (h : soft r = true) : soft (ctrlP tys o ++ r) = true := by
  cases o
  · exact h
  · exact soft_pc

theorem sep_src (tys : List Ty) (o : Option Nat) {r : List Piece} (h : soft r = true) : sep (srcP tys o ++ r) = sep r := by
  cases o
  · rfl
  · simp only [srcP, List.cons_append, List.nil_append]
    rw [sep_sp, sep_pc (by decide) (by decide), sep_pc (by decide) (by decide), sep_sp, sep_arg _ _ h]

theorem sep_ctrl (tys : List Ty) (o : Option Nat) {r : List Piece} (h : soft r = true) : sep (ctrlP tys o ++ r) = sep r := by
  cases o
  · rfl
  · simp only [ctrlP, List.cons_append, List.nil_append]
    rw [sep_pc (by decide) (by decide), sep_sp, sep_arg _ _ h]

theorem headP_ok (ty : Ty) {nm : List Char} (h : NameOK nm) : AllOK (headP ty nm) := by
  simp [headP, tyP_ok, sp_ok, strP_ok h, pc_ok (show '<' ∈ puncts by decide), pc_ok (show '>' ∈ puncts by decide), pc_ok (show '(' ∈ puncts by decide)]

theorem sep_head (ty : Ty) (nm : List Char) {r : List Piece} : sep (headP ty nm ++ r) = sep r := by
  simp only [headP, List.cons_append, List.nil_append, List.append_assoc]
  rw [sep_pc (by decide) (by decide), sep_ty _ soft_pc, sep_pc (by decide) (by decide), sep_sp, sep_pc (by decide) (by decide), sep_str]

theorem latDictP_ok (l : IntAttr) : AllOK (latDictP l) := by
  simp [latDictP, attrP_ok, sp_ok, pc_ok (show '{' ∈ puncts by decide), pc_ok (show '=' ∈ puncts by decide), pc_ok (show '}' ∈ puncts by decide)]
  exact kwOK (by decide)

theorem sep_latDict (l : IntAttr) {r : List Piece} : sep (latDictP l ++ r) = sep r := by
  simp only [latDictP, List.cons_append, List.nil_append, List.append_assoc]
  rw [sep_sp, sep_pc (by decide) (by decide), sep_kw soft_sp, sep_sp, sep_pc (by decide) (by decide), sep_sp, sep_attr _ soft_pc,
    sep_pc (by decide) (by decide)]

theorem soft_latDict (l : IntAttr) {r : List Piece} : soft (latDictP l ++ r) = true := rfl

theorem bracketP_ok (l : IntAttr) : AllOK (bracketP l) := by
  unfold bracketP
  split <;> simp [attrP_ok, sp_ok, pc_ok (show '[' ∈ puncts by decide), pc_ok (show ']' ∈ puncts by decide), pc_ok (show '?' ∈ puncts by decide)]

theorem sep_bracket (l : IntAttr) {r : List Piece} : sep (bracketP l ++ r) = sep r := by
  unfold bracketP
  split <;> simp only [List.cons_append, List.nil_append, List.append_assoc]
  · rw [sep_pc (by decide) (by decide), sep_pc (by decide) (by decide), sep_pc (by decide) (by decide), sep_sp]
  · rw [sep_pc (by decide) (by decide), sep_attr _ soft_pc, sep_pc (by decide) (by decide), sep_sp]

theorem muxVarP_ok (tys : List Ty) (res : Ty) (v : Nat) : AllOK (muxVarP tys res v) := by
  unfold muxVarP
  split <;> simp [tyP_ok, sp_ok, valP_ok, pc_ok (show ',' ∈ puncts by decide), pc_ok (show ':' ∈ puncts by decide)]

theorem muxVarsP_ok (tys : List Ty) (res : Ty) : ∀ vs : List Nat, AllOK (vs.flatMap (muxVarP tys res))
  | [] => by simp
  | v :: vs => by rw [List.flatMap_cons]; exact allOK_append.mpr ⟨muxVarP_ok tys res v, muxVarsP_ok tys res vs⟩

theorem soft_muxVars (tys : List Ty) (res : Ty) (vs : List Nat) {r : List Piece} (h : soft r = true) :
    soft (vs.flatMap (muxVarP tys res) ++ r) = true := by
  cases vs with
  | nil => exact h
  | cons v vs => rw [List.flatMap_cons, List.append_assoc]; exact soft_pc

theorem sep_muxVars (tys : List Ty) (res : Ty) : ∀ (vs : List Nat) {r : List Piece}, soft r = true → sep (vs.flatMap (muxVarP tys res) ++ r) = sep r
  | [], _, _ => rfl
  | v :: vs, r, h => by
    have ih := sep_muxVars tys res vs h
    have hs := soft_muxVars tys res vs h
    rw [List.flatMap_cons, List.append_assoc]
    rw [show muxVarP tys res v = [pc ',', sp, valP v] ++ (if tyOf tys v = res then [] else [pc ':', sp] ++ tyP (tyOf tys v)) from rfl]
    split
    · simp only [List.cons_append, List.nil_append, List.append_nil]
      rw [sep_pc (by decide) (by decide), sep_sp, sep_val hs, ih]
    · simp only [List.cons_append, List.nil_append]
      rw [sep_pc (by decide) (by decide), sep_sp, sep_val soft_pc, sep_colon, sep_ty _ hs, ih]

local macro "allok" : tactic => `(tactic| (
  simp only [argsP, allOK_append, allOK_cons, allOK_nil, and_true]
  simp [tyP_ok, attrP_ok, argP_ok, srcP_ok, ctrlP_ok, latDictP_ok, bracketP_ok, muxVarsP_ok, numP_ok, valP_ok, sp_ok,
    pc_ok (show '(' ∈ puncts by decide), pc_ok (show ')' ∈ puncts by decide), pc_ok (show '[' ∈ puncts by decide), pc_ok (show ']' ∈ puncts by decide),
    pc_ok (show '{' ∈ puncts by decide), pc_ok (show '}' ∈ puncts by decide), pc_ok (show '<' ∈ puncts by decide), pc_ok (show '>' ∈ puncts by decide),
    pc_ok (show ',' ∈ puncts by decide), pc_ok (show ':' ∈ puncts by decide), pc_ok (show '=' ∈ puncts by decide)]))

theorem argsP_ok {tys : List Ty} {s : Stmt} (h : StmtOK tys s) : AllOK (argsP tys s) := by
  cases s with
  | scalarInput ty nm => allok; exact headP_ok _ h.2
  | scalarOutput ty nm src => allok; exact headP_ok _ h.2.1
  | input ty nm ctrl => allok; exact headP_ok _ h.2.1
  | output ty nm ctrl src => allok; exact ⟨headP_ok _ h.2.1, kwOK (by decide), kwOK (by decide), kwOK (by decide)⟩
  | convert x res =>
    obtain ⟨_, _, t, rfl⟩ := h
    allok
  | _ => allok

local macro "seprw" : tactic => `(tactic| (
  simp only [argsP, List.cons_append, List.nil_append, List.append_assoc]))

theorem sep_args {tys : List Ty} {s : Stmt} (h : StmtOK tys s) {r : List Piece} (hr : soft r = true) : sep (argsP tys s ++ r) = sep r := by
  cases s with
  | scalarInput ty nm => seprw; rw [sep_head, sep_pc (by decide) (by decide)]
  | scalarOutput ty nm src => seprw; rw [sep_head, sep_pc (by decide) (by decide), sep_src _ _ hr]
  | input ty nm ctrl => seprw; rw [sep_head, sep_ctrl _ _ soft_pc, sep_pc (by decide) (by decide)]
  | output ty nm ctrl src =>
    seprw
    rw [sep_head, sep_ctrl _ _ soft_pc, sep_pc (by decide) (by decide), sep_src _ _ soft_sp, sep_sp, sep_pc (by decide) (by decide), sep_kw soft_sp, sep_sp,
      sep_pc (by decide) (by decide), sep_sp, sep_kw soft_pc, sep_pc (by decide) (by decide), sep_kw soft_pc, sep_colon, sep_num soft_pc,
      sep_pc (by decide) (by decide), sep_sp, sep_num soft_pc, sep_pc (by decide) (by decide), sep_pc (by decide) (by decide)]
  | constant ty v => seprw; rw [sep_pc (by decide) (by decide), sep_ty _ soft_pc, sep_pc (by decide) (by decide), sep_sp, sep_attr _ hr]
  | connect d s =>
    seprw
    rw [sep_pc (by decide) (by decide), sep_arg _ _ soft_pc, sep_pc (by decide) (by decide), sep_sp, sep_arg _ _ soft_pc, sep_pc (by decide) (by decide)]
  | latency l x res =>
    seprw
    rw [sep_pc (by decide) (by decide), sep_attr _ soft_pc, sep_pc (by decide) (by decide), sep_sp, sep_pc (by decide) (by decide), sep_arg _ _ soft_pc,
      sep_pc (by decide) (by decide), sep_sp, sep_colon, sep_ty _ (soft_latDict l), sep_latDict]
  | sched1 k l x res =>
    seprw
    rw [sep_bracket, sep_pc (by decide) (by decide), sep_arg _ _ soft_pc,
      sep_pc (by decide) (by decide), sep_sp, sep_colon, sep_ty _ (soft_latDict l), sep_latDict]
  | sched2 k l x y res =>
    seprw
    rw [sep_bracket, sep_pc (by decide) (by decide), sep_arg _ _ soft_pc, sep_pc (by decide) (by decide), sep_sp, sep_arg _ _ soft_pc,
      sep_pc (by decide) (by decide), sep_sp, sep_colon, sep_ty _ (soft_latDict l), sep_latDict]
  | comb2 k x y res =>
    seprw
    rw [sep_pc (by decide) (by decide), sep_arg _ _ soft_pc, sep_pc (by decide) (by decide), sep_sp, sep_arg _ _ soft_pc,
      sep_pc (by decide) (by decide), sep_sp, sep_colon, sep_ty _ hr]
  | not x res =>
    seprw
    rw [sep_pc (by decide) (by decide), sep_arg _ _ soft_pc, sep_pc (by decide) (by decide), sep_sp, sep_colon, sep_ty _ hr]
  | offset x o res =>
    seprw
    rw [sep_pc (by decide) (by decide), sep_val soft_pc, sep_pc (by decide) (by decide), sep_sp, sep_attr _ soft_pc, sep_pc (by decide) (by decide),
      sep_sp, sep_colon, sep_ty _ hr]
  | convert x res =>
    obtain ⟨_, _, t, rfl⟩ := h
    seprw
    rw [sep_pc (by decide) (by decide), sep_arg _ _ soft_pc, sep_pc (by decide) (by decide), sep_sp, sep_colon, sep_pc (by decide) (by decide),
      sep_ty _ soft_pc, sep_pc (by decide) (by decide)]
  | mux c vs res =>
    seprw
    rw [sep_pc (by decide) (by decide), sep_val soft_pc, sep_colon, sep_ty _ (soft_muxVars _ _ _ soft_pc), sep_muxVars _ _ _ soft_pc,
      sep_pc (by decide) (by decide), sep_sp, sep_colon, sep_ty _ hr]
  | bits x l r' res =>
    seprw
    rw [sep_pc (by decide) (by decide), sep_arg _ _ soft_pc, sep_pc (by decide) (by decide), sep_sp, sep_attr _ soft_pc, sep_pc (by decide) (by decide),
      sep_sp, sep_attr _ soft_pc, sep_pc (by decide) (by decide), sep_sp, sep_colon, sep_ty _ hr]
  | shift k x n res =>
    seprw
    rw [sep_pc (by decide) (by decide), sep_arg _ _ soft_pc, sep_pc (by decide) (by decide), sep_sp, sep_attr _ soft_pc, sep_pc (by decide) (by decide),
      sep_sp, sep_colon, sep_ty _ hr]
  | counter ty m =>
    seprw
    rw [sep_pc (by decide) (by decide), sep_ty _ soft_pc, sep_pc (by decide) (by decide), sep_sp, sep_pc (by decide) (by decide), sep_val soft_pc,
      sep_colon, sep_ty _ soft_pc, sep_pc (by decide) (by decide)]

theorem soft_args {tys : List Ty} {s : Stmt} {r : List Piece} : soft (argsP tys s ++ r) = true := by
  cases s <;> (try (simp only [argsP, headP, bracketP, List.append_assoc, List.cons_append, List.nil_append]; first | exact soft_pc | (split <;> exact soft_pc)))

theorem blockP_ok : ∀ {l : List Stmt} {tys : List Ty}, BlockOK tys l → AllOK (blockP tys l)
  | [], _, _ => by simp [blockP]
  | s :: l, tys, h => by
    have ih := blockP_ok h.2
    have h1 : AllOK (resP tys.length s.res) := by
      cases s.res <;> simp [resP, valP_ok, sp_ok, pc_ok (show '=' ∈ puncts by decide)]
    simp only [blockP, allOK_append, allOK_cons, allOK_nil, and_true]
    exact ⟨⟨⟨⟨⟨⟨by decide, by decide⟩, h1⟩, name_ok s⟩, argsP_ok h.1⟩, ⟨by decide, by decide⟩⟩, ih⟩

theorem sep_block : ∀ {l : List Stmt} {tys : List Ty} {r : List Piece}, BlockOK tys l → soft r = true → sep (blockP tys l ++ r) = sep r
  | [], _, _, _, _ => rfl
  | s :: l, tys, r, h, hr => by
    have ih := sep_block h.2 hr
    have h1 : ∀ q : List Piece, soft q = true → sep (resP tys.length s.res ++ (kw s.name :: q)) = sep q := by
      intro q hq
      cases s.res
      · exact sep_kw hq
      · simp only [resP, List.cons_append, List.nil_append]
        rw [sep_val soft_sp, sep_sp, sep_pc (by decide) (by decide), sep_sp, sep_kw hq]
    simp only [blockP, List.append_assoc, List.cons_append, List.nil_append]
    rw [sep_ws, h1 _ soft_args, sep_args h.1 soft_ws, sep_ws, ih]

theorem fileP_ok {f : File} (h : FileOK f) : AllOK (fileP f) := by
  have hb := blockP_ok h.2
  simp only [fileP, allOK_append, allOK_cons, allOK_nil, and_true]
  refine ⟨⟨⟨kwOK (by decide), sp_ok, pc_ok (by decide), ⟨by decide, by decide⟩, kwOK (by decide), sp_ok, strP_ok h.1, sp_ok, pc_ok (by decide),
    ⟨by decide, by decide⟩⟩, hb⟩, ⟨by decide, by decide⟩, pc_ok (by decide), ⟨by decide, by decide⟩, pc_ok (by decide), ⟨by decide, by decide⟩⟩

theorem sep_file {f : File} (h : FileOK f) : sep (fileP f) = true := by
  simp only [fileP, List.append_assoc, List.cons_append, List.nil_append]
  rw [sep_kw soft_sp, sep_sp, sep_pc (by decide) (by decide), sep_ws, sep_kw soft_sp, sep_sp, sep_str, sep_sp, sep_pc (by decide) (by decide), sep_ws,
    sep_block h.2 soft_ws]
  decide

theorem lex_print {f : File} (h : FileOK f) : lex (print f) = some (toks (fileP f)) := lex_render (fileP_ok h) (sep_file h)

end Verif.Text
