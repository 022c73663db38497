import Verif.Model.HwIdentifier
/-!
# Specification of hardware matching

Written directly on the bytes of the identifier and of the machine's adapters and disks.
-/
namespace Licensecc.Spec

/-- Does some adapter or disk of the machine carry the bytes of the identifier?  `h.d1` holds the strategy number in
    its top three bits. -/
def HwMatches (m : Machine) (h : HwId) : Prop :=
  -- strategy 0: a non-zero MAC address, all six bytes
  (h.d1 = 0 ∧ ∃ as a, m.adapters = .ok (.ok, as) ∧ a ∈ as
      ∧ a.mac = ⟨h.d2, h.d3, h.d4, h.d5, h.d6, h.d7⟩ ∧ a.mac ≠ ⟨0, 0, 0, 0, 0, 0⟩)
  -- strategy 1: a non-zero IPv4 address, followed by two filler bytes
  ∨ (h.d1 = 32 ∧ h.d6 = 42 ∧ h.d7 = 42 ∧ ∃ as a, m.adapters = .ok (.ok, as) ∧ a ∈ as
      ∧ a.ip = ⟨h.d2, h.d3, h.d4, h.d5⟩ ∧ a.ip ≠ ⟨0, 0, 0, 0⟩)
  -- strategy 2: seven bytes of a disk serial number or six bytes of a label; of the first byte only five bits count
  ∨ (h.d1.toNat / 32 = 2 ∧ ∃ ds d, m.disks = .ok (.ok, ds) ∧ d ∈ ds ∧
      ((d.snInit = true ∧ d.sn.s0.toNat % 32 = h.d1.toNat % 32 ∧ d.sn.s1 = h.d2 ∧ d.sn.s2 = h.d3 ∧ d.sn.s3 = h.d4
          ∧ d.sn.s4 = h.d5 ∧ d.sn.s5 = h.d6 ∧ d.sn.s6 = h.d7)
       ∨ (d.labelInit = true ∧ ∃ l pad, l = (d.label.takeWhile (· ≠ 0)).take 6 ∧ pad = List.replicate (6 - l.length) 0
          ∧ ∃ c0, l ++ pad = [c0, h.d2, h.d3, h.d4, h.d5, h.d6] ∧ c0.toNat % 32 = h.d1.toNat % 32 ∧ h.d7 = 0)))

/-- `m'` still has every adapter, serial number and label of `m` (in any order, possibly with others added; which disk is
    preferred does not matter). -/
structure Extends (m m' : Machine) : Prop where
  adapters : ∀ as, m.adapters = .ok (.ok, as) → ∃ as', m'.adapters = .ok (.ok, as') ∧ ∀ a ∈ as, a ∈ as'
  disks : ∀ ds, m.disks = .ok (.ok, ds) → ∃ ds', m'.disks = .ok (.ok, ds') ∧
    ∀ d ∈ ds, (d.snInit = true → ∃ d' ∈ ds', d'.snInit = true ∧ d'.sn = d.sn)
      ∧ (d.labelInit = true → ∃ d' ∈ ds', d'.labelInit = true ∧ d'.label = d.label)

/-- The text of a hardware identifier decodes to another number of bytes than eight, or is `==`, for which the decoder throws; dashes
    and newlines do not count. -/
def NotEightBytes (code : Bytes) : Prop :=
  code.filter (fun c => c ≠ 45 && c ≠ 10) = b!"=="
    ∨ ∃ out, unbase64 (code.map fun c => if c = 45 then 10 else c) = .ok out ∧ out.length ≠ 8

/-- The system calls do not fail with an exception that is not a `std::logic_error`. -/
def Machine.NoRuntimeError (m : Machine) : Prop :=
  m.adapters ≠ .throw .runtimeError ∧ m.disks ≠ .throw .runtimeError

end Licensecc.Spec
