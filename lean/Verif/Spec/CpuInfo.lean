import Verif.Model.CpuInfo
/-!
# Specification: what a processor says about itself

As in the manuals of the processor makers.
-/
namespace Licensecc.Spec

/-- Four bytes, the least significant first, are the number in a register. -/
def Holds (x : UInt32) (b : Bytes) : Prop :=
  ∃ b0 b1 b2 b3 : UInt8, b = [b0, b1, b2, b3] ∧ x.toNat = b0.toNat + 256 * b1.toNat + 65536 * b2.toNat + 16777216 * b3.toNat

/-- Number 0 gives the vendor: four bytes in EBX, four in EDX, four in ECX. -/
def VendorIs (c : Cpu) (v : Bytes) : Prop :=
  ∃ x y z, Holds (c 0).ebx x ∧ Holds (c 0).edx y ∧ Holds (c 0).ecx z ∧ v = x ++ y ++ z

/-- Four registers hold sixteen bytes. -/
def Holds4 (r : Regs) (b : Bytes) : Prop :=
  ∃ x y z w, Holds r.eax x ∧ Holds r.ebx y ∧ Holds r.ecx z ∧ Holds r.edx w ∧ b = x ++ y ++ z ++ w

/-- The processor has a brand: the highest number above 0x80000000 it knows is at least 0x80000004. -/
def HasBrand (c : Cpu) : Prop := 0x80000004 ≤ (c 0x80000000).eax.toNat

/-- The 48 bytes of the brand, in three thirds. -/
def BrandThirds (c : Cpu) (p q r : Bytes) : Prop :=
  Holds4 (c 0x80000002) p ∧ Holds4 (c 0x80000003) q ∧ Holds4 (c 0x80000004) r

/-- `t` is the text in `b`: everything before the first NUL, or all of it. -/
def TextOf (b t : Bytes) : Prop := (0 : UInt8) ∉ t ∧ (b = t ∨ ∃ r, b = t ++ 0 :: r)

/-- The brand. -/
def BrandIs (c : Cpu) (t : Bytes) : Prop := ∃ p q r, BrandThirds c p q r ∧ TextOf (p ++ q ++ r) t

/-- The processor knows number 1. -/
def KnowsItself (c : Cpu) : Prop := 1 ≤ (c 0).eax.toNat

/-- The processor says that it is virtual: bit 31 of ECX for number 1. -/
def SaysVirtual (c : Cpu) : Prop := 2 ^ 31 ≤ (c 1).ecx.toNat

/-- What number 1 says in EAX and EBX. -/
structure Signature where
  stepping : Nat
  model : Nat
  family : Nat
  type : Nat
  extModel : Nat
  extFamily : Nat
  brandIndex : Nat
  deriving DecidableEq, Repr

/-- EAX: stepping (bits 0-3), model (4-7), family (8-11), type (12-13), two reserved bits, extended model (16-19), extended family
    (20-27), four reserved bits.  EBX: brand index (bits 0-7). -/
def HasSignature (c : Cpu) (s : Signature) : Prop :=
  (c 1).eax.toNat = s.stepping + 2 ^ 4 * s.model + 2 ^ 8 * s.family + 2 ^ 12 * s.type + 2 ^ 16 * s.extModel + 2 ^ 20 * s.extFamily
  ∧ s.stepping < 16 ∧ s.model < 16 ∧ s.family < 16 ∧ s.type < 4 ∧ s.extModel < 16 ∧ s.extFamily < 256
  ∧ ∃ r, (c 1).ebx.toNat = s.brandIndex + 256 * r ∧ s.brandIndex < 256

end Licensecc.Spec
