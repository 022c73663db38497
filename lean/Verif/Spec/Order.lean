import Verif.Basic
/-!
# Specification: the order of names
-/
namespace Licensecc.Spec

/-- `a` comes before `b` in byte order: `b` is longer and begins like `a`, or where they first differ the byte of `a` is the smaller one. -/
def Before (a b : Bytes) : Prop :=
  (∃ c r, b = a ++ c :: r) ∨ ∃ p x y s t, a = p ++ x :: s ∧ b = p ++ y :: t ∧ x.toNat < y.toNat

end Licensecc.Spec
