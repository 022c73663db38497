/-!
# The arithmetic of `days_left`, src/library/limits/license_verifier.cpp:75-76

`difftime`, a division and `round`, in IEEE 754 binary64 with rounding to nearest. Which of two doubles that are equally near is taken is left open, so that ties to even are a
special case.
-/
namespace Licensecc.Double

/-- The value of a finite double: an integer below 2^53 times a power of two from 2^-1074 to 2^971. -/
def IsDouble (x : Rat) : Prop :=
  ∃ m : Int, -2 ^ 53 < m ∧ m < 2 ^ 53 ∧ ((∃ k : Nat, k ≤ 1074 ∧ x = m / 2 ^ k) ∨ ∃ k : Nat, k ≤ 971 ∧ x = m * 2 ^ k)

/-- The distance of two numbers. -/
def dist (x y : Rat) : Rat := if x ≤ y then y - x else x - y

/-- `x` is the result of an operation whose exact result is `q`. -/
def Nearest (q x : Rat) : Prop := IsDouble x ∧ ∀ y, IsDouble y → dist q x ≤ dist q y

/-- `round` of C: the nearest integer, halves away from zero. -/
def IsRound (x : Rat) (n : Int) : Prop :=
  (0 ≤ x → (n : Rat) - 1 / 2 ≤ x ∧ x < n + 1 / 2) ∧ (x < 0 → (n : Rat) - 1 / 2 < x ∧ x ≤ n + 1 / 2)

/-- The number that is converted to `int` in src/library/limits/license_verifier.cpp:75-76:
    `secs = difftime(expiry, now)`, then `round(secs / (60 * 60 * 24))`. -/
def Days (expiry now n : Int) : Prop :=
  ∃ secs q : Rat, Nearest ((expiry - now : Int) : Rat) secs ∧ Nearest (secs / 86400) q ∧ IsRound q n

end Licensecc.Double
