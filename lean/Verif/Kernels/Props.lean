import Verif.Kernels.Top
import Verif.Kernels.Galois
import Verif.Kernels.Magma
import Verif.Kernels.Kuznechik
import Verif.Std.GostProps
/-
The kernels of the standard library, from their code to the hardware.
-/
namespace Verif.Kernels
open Verif.Dfcxx Verif.Flow

/-- Only "left" may be bound to a constant. -/
def onlyLeft (s : String) : Prop := s = "left"

theorem onlyLeft_names : Names onlyLeft := by
  constructor <;> simp [onlyLeft]

/-- **C62.** The hardware generated for `Galois8Mul` multiplies in GF(2^8) = GF(2)[x]/(x^8 + x^7 + x^6 + x + 1): the polynomial of the byte
it shows is the remainder of the product of the polynomials of the bytes it got. -/
theorem galois8Mul_hardware (F : FloatOps) :
    Realizes (galois8Mul F) [("left", 8), ("right", 8)] "result" 8 (fun v y =>
      Std.poly y = (Std.poly (BitVec.ofNat 8 (v "left")) * Std.poly (BitVec.ofNat 8 (v "right"))) %ₘ Std.fieldPoly) :=
  (galois8Mul_contract (F := F) (Z := onlyLeft) (by simp [onlyLeft])).realizes trivial _ fun v =>
    Std.galois8Mul_is_field_multiplication (BitVec.ofNat 8 (v "left")) (BitVec.ofNat 8 (v "right"))

/-- The constants `KuznechikGalois8Mul` can be built with: the coefficients of the linear transformation. -/
def kuznConsts : List Nat := [1, 0x94, 0x20, 0x85, 0x10, 0xC2, 0xC0, 0xFB]

theorem kuznConsts_some : ∀ c ∈ kuznConsts, (Std.kuznechikGalois8Mul c 0).isSome := by decide +kernel

/-- **C62.** The hardware generated for `KuznechikGalois8Mul(c)` multiplies by `c` in the same field. -/
theorem kuznGalois_hardware (F : FloatOps) {c : Nat} (hc : c ∈ kuznConsts) :
    Realizes (kuznGalois F c) [("in", 8)] "out" 8 (fun v y =>
      Std.poly y = (Std.poly (BitVec.ofNat 8 c) * Std.poly (BitVec.ofNat 8 (v "in"))) %ₘ Std.fieldPoly) :=
  (kuznGalois_contract (F := F) (Z := onlyLeft) (by simp [onlyLeft]) (kuznConsts_some c hc)).realizes trivial _ fun v => by
    show Std.poly ((Std.kuznechikGalois8Mul c (BitVec.ofNat 8 (v "in"))).getD 0) = _
    obtain ⟨r, hr⟩ : ∃ r, Std.kuznechikGalois8Mul c (BitVec.ofNat 8 (v "in")) = some r := by
      have h0 := kuznConsts_some c hc
      rw [← Option.isSome_iff_exists]
      unfold Std.kuznechikGalois8Mul at h0 ⊢
      split <;> simp_all
    rw [hr, Option.getD_some, Std.table_is_product c _ r hr]
    exact Std.galois8Mul_is_field_multiplication _ _

/-- **C62.** With any other constant the constructor aborts. -/
theorem kuznGalois_other_aborts (F : FloatOps) {c : Nat} (hc : c ∉ kuznConsts) : kuznGalois F c World.init = .error .assertFail := by
  simp only [kuznConsts, List.mem_cons, List.not_mem_nil, or_false, not_or] at hc
  obtain ⟨h1, h2, h3, h4, h5, h6, h7, h8⟩ := hc
  have hb : ∀ inp, kuznBody F c inp = fun _ => .error .assertFail := by
    intro inp
    unfold kuznBody
    rw [if_neg h1]
    have : mulTable c = none := by
      unfold mulTable
      split <;> first | contradiction | rfl
    rw [this]
  unfold kuznGalois
  simp only [hb]
  rfl

/-- **C63.** The hardware generated for `MagmaEncoder` encrypts as GOST R 34.12-2015 says. -/
theorem magmaEncoder_hardware (F : FloatOps) :
    Realizes (magmaEncoder F) [("block", 64), ("key", 256)] "encoded" 64 (fun v y =>
      Std.Gost.IsMagmaEncrypt (BitVec.ofNat 256 (v "key")) (BitVec.ofNat 64 (v "block")) y) :=
  (magmaEncoder_contract (F := F) (Z := onlyLeft) (by simp [onlyLeft]) (by simp [onlyLeft])).realizes trivial _ fun v =>
    (Std.magma_encode_is_standard (BitVec.ofNat 256 (v "key")) (BitVec.ofNat 64 (v "block")) _).mpr rfl

/-- **C63.** And for `MagmaDecoder`. -/
theorem magmaDecoder_hardware (F : FloatOps) :
    Realizes (magmaDecoder F) [("encoded", 64), ("key", 256)] "block" 64 (fun v y =>
      Std.Gost.IsMagmaDecrypt (BitVec.ofNat 256 (v "key")) (BitVec.ofNat 64 (v "encoded")) y) :=
  (magmaDecoder_contract (F := F) (Z := onlyLeft) (by simp [onlyLeft]) (by simp [onlyLeft])).realizes trivial _ fun v =>
    (Std.magma_decode_is_standard (BitVec.ofNat 256 (v "key")) (BitVec.ofNat 64 (v "encoded")) _).mpr rfl

/-- **C64.** The hardware generated for `KuznechikEncoder`, with and without table-based multiplication, encrypts as GOST R 34.12-2015 says. -/
theorem kuznechikEncoder_hardware (F : FloatOps) (opt : Bool) :
    Realizes (kuznechikEncoder F (stdVariant opt)) [("block", 128), ("key", 256)] "encoded" 128 (fun v y =>
      Std.Gost.IsKuznechikEncrypt (BitVec.ofNat 256 (v "key")) (BitVec.ofNat 128 (v "block")) y) :=
  (kuznechikEncoder_contract (F := F) onlyLeft_names (stdVariant opt)).realizes rfl _ fun v =>
    (Std.kuznechik_encode_is_standard _ (BitVec.ofNat 256 (v "key")) (BitVec.ofNat 128 (v "block")) _).mpr rfl

/-- **C64.** And for `KuznechikDecoder`. -/
theorem kuznechikDecoder_hardware (F : FloatOps) (opt : Bool) :
    Realizes (kuznechikDecoder F (stdVariant opt)) [("encoded", 128), ("key", 256)] "block" 128 (fun v y =>
      Std.Gost.IsKuznechikDecrypt (BitVec.ofNat 256 (v "key")) (BitVec.ofNat 128 (v "encoded")) y) :=
  (kuznechikDecoder_contract (F := F) onlyLeft_names (v := stdVariant opt) rfl).realizes rfl _ fun v =>
    (Std.kuznechik_decode_is_standard _ (BitVec.ofNat 256 (v "key")) (BitVec.ofNat 128 (v "encoded")) _).mpr rfl

/-- The encoders of /repo/examples: the loop of `S` starts at bit 127 in all three. -/
def exampleEncoder (mul : MulBy) : Variant := ⟨mul, true⟩

/-- The decoders of /repo/examples. -/
def exampleDecoder (mul : MulBy) : Variant := ⟨mul, false⟩

/-- **C73.** The hardware generated for the three example encoders (examples/kuznechik, whose multiplications take a constant, folded in part
while the kernel is built; examples/kuznechik_inst; examples/opt_kuznechik) encrypts as GOST R 34.12-2015 says. -/
theorem exampleEncoder_hardware (F : FloatOps) (mul : MulBy) :
    Realizes (kuznechikEncoder F (exampleEncoder mul)) [("block", 128), ("key", 256)] "encoded" 128 (fun v y =>
      Std.Gost.IsKuznechikEncrypt (BitVec.ofNat 256 (v "key")) (BitVec.ofNat 128 (v "block")) y) :=
  (kuznechikEncoder_contract (F := F) onlyLeft_names (exampleEncoder mul)).realizes rfl _ fun v =>
    (Std.kuznechik_encode_is_standard _ (BitVec.ofNat 256 (v "key")) (BitVec.ofNat 128 (v "block")) _).mpr rfl

/-- **C73.** And for the three example decoders. -/
theorem exampleDecoder_hardware (F : FloatOps) (mul : MulBy) :
    Realizes (kuznechikDecoder F (exampleDecoder mul)) [("encoded", 128), ("key", 256)] "block" 128 (fun v y =>
      Std.Gost.IsKuznechikDecrypt (BitVec.ofNat 256 (v "key")) (BitVec.ofNat 128 (v "encoded")) y) :=
  (kuznechikDecoder_contract (F := F) onlyLeft_names (v := exampleDecoder mul) rfl).realizes rfl _ fun v =>
    (Std.kuznechik_decode_is_standard _ (BitVec.ofNat 256 (v "key")) (BitVec.ofNat 128 (v "encoded")) _).mpr rfl

end Verif.Kernels
