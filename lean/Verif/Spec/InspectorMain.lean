import Verif.Model.InspectorMain
import Verif.Spec.Inspector
import Verif.Spec.Network
/-!
# Specification: what lccinspector prints about this computer
-/
namespace Licensecc.Spec

/-- The value of a digit 0-9, a-f. -/
def digitValue (c : UInt8) : Nat := if c.toNat < 58 then c.toNat - 48 else c.toNat - 87

/-- The byte is a digit in this base. -/
def IsDigit (base : Nat) (c : UInt8) : Prop :=
  (48 ≤ c.toNat ∧ c.toNat ≤ 57 ∨ 97 ≤ c.toNat ∧ c.toNat ≤ 102) ∧ digitValue c < base

/-- The text is the number `n` written in this base. -/
def Numeral (base n : Nat) (t : Bytes) : Prop :=
  t ≠ [] ∧ (∀ c ∈ t, IsDigit base c) ∧ t.foldl (fun v c => v * base + digitValue c) 0 = n

/-- Numbers with a byte between them. -/
inductive Joined (base : Nat) (sep : UInt8) : List Nat → Bytes → Prop
  | one {n : Nat} {t : Bytes} : Numeral base n t → Joined base sep [n] t
  | more {n : Nat} {ns : List Nat} {t u : Bytes} : Numeral base n t → Joined base sep ns u → Joined base sep (n :: ns) (t ++ sep :: u)

/-- An IPv4 address as a text such as 192-168-1-20. -/
def IpText (a : Ipv4) (t : Bytes) : Prop := Joined 10 45 [a.i0.toNat, a.i1.toNat, a.i2.toNat, a.i3.toNat] t

/-- A hardware address as a text such as 0:1b:21:7:ff:10. -/
def MacText (m : Mac) (t : Bytes) : Prop :=
  Joined 16 58 [m.m0.toNat, m.m1.toNat, m.m2.toNat, m.m3.toNat, m.m4.toNat, m.m5.toNat] t

/-- Three lines about an adapter. -/
def adapterLines (name ip mac : Bytes) : Inspector.Printed :=
  [(.out, b!"Network adapter [0]: " ++ name), (.out, b!"   ip address [" ++ ip ++ b!"]"), (.out, b!"   mac address [" ++ mac ++ b!"]")]

/-- What should be printed about one licence file: that it cannot be opened, or the verdicts - a line for the project of the tool, and one
    for each further section; good ones on the standard output, others on the standard error. -/
inductive FileReport (cfg : Config) (fname : Bytes) : Option Inspector.Run → Inspector.Printed → Prop
  | missing : FileReport cfg fname none [(.err, b!"license file :" ++ fname ++ b!" not found.")]
  | verdicts {r : Inspector.Run} {p d : Bytes} {rest : List (Bytes × Bytes)} {l : Inspector.Printed} :
      Inspector.verifyLicense cfg r fname = .ok ((p, d) :: rest) →
      l.length = rest.length + 1 →
      (l[0]? = some (.out, b!"default project [" ++ p ++ b!"]: license OK") ∧ d = okText
        ∨ l[0]? = some (.err, b!"default project [" ++ p ++ b!"]:" ++ d) ∧ d ≠ okText) →
      (∀ (i : Nat) (q e : Bytes), rest[i]? = some (q, e) →
        l[i + 1]? = some (.out, b!"project [" ++ q ++ b!"]: license OK") ∧ e = okText
        ∨ l[i + 1]? = some (.err, b!"project [" ++ q ++ b!"]" ++ e) ∧ e ≠ okText) →
      FileReport cfg fname (some r) l

/-- Reports on files one after the other. -/
inductive FileReports (cfg : Config) (files : Nat → Bytes → Option Inspector.Run) : Nat → List Bytes → Inspector.Printed → Prop
  | nil {n : Nat} : FileReports cfg files n [] []
  | cons {n : Nat} {f : Bytes} {fs : List Bytes} {a b : Inspector.Printed} : FileReport cfg f (files n f) a →
      FileReports cfg files (n + 1) fs b → FileReports cfg files n (f :: fs) (a ++ b)

end Licensecc.Spec
