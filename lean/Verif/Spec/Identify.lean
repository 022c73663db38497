import Verif.Spec.Hardware
import Verif.Spec.Base64
/-!
# Specification of identify_pc: which identifier is produced

Written on the machine's adapters and disks and on the text of the environment variable; the text form is RFC 4648.
-/
namespace Licensecc.Spec

/-- Decimal value of a string of digits. -/
def numeral (ds : Bytes) : Nat := ds.foldl (fun v d => v * 10 + (d.toNat - 48)) 0

/-- The number at the start of a text: white space, an optional sign, digits (possibly none: then 0), anything. -/
def LeadingNumber (t : Bytes) (v : Int) : Prop :=
  ∃ sp sign ds rest, t = sp ++ sign ++ ds ++ rest
    ∧ (∀ c ∈ sp, c ∈ [32, 9, 10, 11, 12, 13])
    ∧ (∀ c, (sign ++ ds ++ rest).head? = some c → c ∉ [32, 9, 10, 11, 12, 13])
    ∧ (∀ d ∈ ds, 48 ≤ d ∧ d ≤ 57) ∧ (∀ c, rest.head? = some c → ¬ (48 ≤ c ∧ c ≤ 57))
    ∧ ((sign = [45] ∧ v = -(numeral ds : Int)) ∨ (sign = [43] ∧ v = numeral ds)
        ∨ (sign = [] ∧ v = numeral ds ∧ ∀ c, (ds ++ rest).head? = some c → c ≠ 45 ∧ c ≠ 43))

/-- The `int` that the C library makes of a text: the leading number, limited to 64 bits and then reduced modulo 2^32. -/
def ReadsInt (t : Bytes) (n : Int) : Prop :=
  ∃ v, LeadingNumber t v ∧ -(2 : Int) ^ 31 ≤ n ∧ n < (2 : Int) ^ 31
    ∧ ∃ k, (if v < -(2 : Int) ^ 63 then -(2 : Int) ^ 63 else if v > (2 : Int) ^ 63 - 1 then (2 : Int) ^ 63 - 1 else v)
        = n + k * (2 : Int) ^ 32

/-- Which strategy identify_pc uses, given the environment variable IDENTIFICATION_STRATEGY and the caller's argument, and
    whether the choice is the variable's. -/
inductive StrategyUsed (var : Option Bytes) (strategy : Int) : Int → Bool → Prop
  /-- the caller asks for a strategy -/
  | explicit : strategy ≠ -1 → StrategyUsed var strategy strategy false
  /-- the caller asks for the default and there is no variable -/
  | unset : strategy = -1 → (∀ v, var = some v → v.takeWhile (· ≠ 0) = []) → StrategyUsed var strategy (-1) false
  /-- the variable holds a number between 0 and 3 -/
  | chosen {v : Bytes} {n : Int} : strategy = -1 → var = some v → v.takeWhile (· ≠ 0) ≠ [] →
      ReadsInt (v.takeWhile (· ≠ 0)) n → 0 ≤ n → n ≤ 3 → StrategyUsed var strategy n true
  /-- the variable holds another number: ignored -/
  | unknown {v : Bytes} {n : Int} : strategy = -1 → var = some v → v.takeWhile (· ≠ 0) ≠ [] →
      ReadsInt (v.takeWhile (· ≠ 0)) n → (n < 0 ∨ 3 < n) → StrategyUsed var strategy (-1) false

/-- The variable counts and holds a number that names no strategy: this is logged. -/
def VariableUnknown (var : Option Bytes) (strategy : Int) : Prop :=
  strategy = -1 ∧ ∃ v n, var = some v ∧ v.takeWhile (· ≠ 0) ≠ [] ∧ ReadsInt (v.takeWhile (· ≠ 0)) n ∧ (n < 0 ∨ 3 < n)

/-- The preferred disks, then the others. -/
def preferredFirst (ds : List Disk) : List Disk := ds.filter (·.preferred) ++ ds.filter (fun d => !d.preferred)

/-- The seven identifying bytes that a machine has under a strategy: the strategy number in the top three bits of the first
    byte, then hardware data. -/
inductive Identifies (m : Machine) : Int → Bytes → Prop
  /-- ethernet: the first adapter with a non-zero MAC address -/
  | mac {before after : List Adapter} {a : Adapter} : m.adapters = .ok (.ok, before ++ a :: after) →
      (∀ x ∈ before, x.mac = ⟨0, 0, 0, 0, 0, 0⟩) → a.mac ≠ ⟨0, 0, 0, 0, 0, 0⟩ →
      Identifies m 0 [0, a.mac.m0, a.mac.m1, a.mac.m2, a.mac.m3, a.mac.m4, a.mac.m5]
  /-- ip: the first adapter with a non-zero address -/
  | ip {before after : List Adapter} {a : Adapter} : m.adapters = .ok (.ok, before ++ a :: after) →
      (∀ x ∈ before, x.ip = ⟨0, 0, 0, 0⟩) → a.ip ≠ ⟨0, 0, 0, 0⟩ →
      Identifies m 1 [32, a.ip.i0, a.ip.i1, a.ip.i2, a.ip.i3, 42, 42]
  /-- disk: the first disk, preferred ones first, with a serial number or a label; the serial number wins -/
  | serial {ds before after : List Disk} {d : Disk} : m.disks = .ok (.ok, ds) → preferredFirst ds = before ++ d :: after →
      (∀ x ∈ before, x.snInit = false ∧ x.labelInit = false) → d.snInit = true →
      Identifies m 2 [64 + UInt8.ofNat (d.sn.s0.toNat % 32), d.sn.s1, d.sn.s2, d.sn.s3, d.sn.s4, d.sn.s5, d.sn.s6]
  | label {ds before after : List Disk} {d : Disk} {c0 c1 c2 c3 c4 c5 : UInt8} : m.disks = .ok (.ok, ds) →
      preferredFirst ds = before ++ d :: after → (∀ x ∈ before, x.snInit = false ∧ x.labelInit = false) →
      d.snInit = false → d.labelInit = true →
      ((d.label.takeWhile (· ≠ 0)) ++ List.replicate 6 0).take 6 = [c0, c1, c2, c3, c4, c5] →
      Identifies m 2 [64 + UInt8.ofNat (c0.toNat % 32), c1, c2, c3, c4, c5, 0]
  /-- default on a machine without virtualisation: the disk -/
  | bareMetal {e : ExecSummary} {bytes : Bytes} : m.exec = .ok e → e.virtualization = .none → Identifies m 2 bytes →
      Identifies m (-1) bytes
  /-- default in a container other than Docker, or a virtual machine that is not in a cloud: the MAC address -/
  | virtual {e : ExecSummary} {bytes : Bytes} : m.exec = .ok e →
      (e.virtualization = .container ∧ e.isDocker = false ∨ e.virtualization = .vm ∧ e.isCloud = false) →
      Identifies m 0 bytes → Identifies m (-1) bytes

/-- Text form of eight bytes: RFC 4648, a dash after every four characters. -/
def dashed (t : Bytes) : Bytes := t.take 4 ++ [45] ++ (t.drop 4).take 4 ++ [45] ++ t.drop 8

/-- The text identify_pc produces: a byte telling whether the environment variable chose the strategy, and the seven
    identifying bytes. -/
def PcIdentifier (m : Machine) (strategy : Int) (text : Bytes) : Prop :=
  ∃ n used bytes, StrategyUsed m.strategyVar strategy n used ∧ Identifies m n bytes
    ∧ text = dashed (rfc4648 ((if used then 64 else 0) :: bytes))

end Licensecc.Spec
