import Verif.Model.Network
/-!
# Specification of the network adapter enumeration
-/
namespace Licensecc.Spec

/-- The entries that count: those with an address, not of a loopback interface (bit 3 of the flags). -/
def Counts (e : IfEntry) : Prop := e.addr.isSome = true ∧ e.flags.toNat / 8 % 2 = 0

instance (e : IfEntry) : Decidable (Counts e) := by unfold Counts; infer_instance

/-- The interface of an entry: the name, as far as 1025 bytes. -/
def ifName (e : IfEntry) : Bytes := e.name.take 1025

/-- The bytes of an IPv4 address as they are in memory (network order), from a little-endian 32 bit number. -/
def memoryBytes (a : UInt32) : Ipv4 :=
  ⟨UInt8.ofNat a.toNat, UInt8.ofNat (a.toNat / 2 ^ 8), UInt8.ofNat (a.toNat / 2 ^ 16), UInt8.ofNat (a.toNat / 2 ^ 24)⟩

/-- The IPv4 addresses that the enumeration gives for an interface, in order. -/
def addressesOf (es : List IfEntry) (name : Bytes) : List Ipv4 :=
  es.filterMap fun e => match e.addr with
    | some (.inet a) => if Counts e ∧ ifName e = name then some (memoryBytes a) else none
    | _ => none

/-- The hardware addresses for an interface, in order (of entries with link statistics). -/
def macsOf (es : List IfEntry) (name : Bytes) : List Mac :=
  es.filterMap fun e => match e.addr with
    | some (.packet m) => if Counts e ∧ ifName e = name ∧ e.hasData = true then some m else none
    | _ => none

/-- The adapter of an interface: its last hardware address and its last IPv4 address, zero where there is none. -/
def adapterOf (es : List IfEntry) (name : Bytes) : Adapter :=
  ⟨(macsOf es name).getLast?.getD ⟨0, 0, 0, 0, 0, 0⟩, (addressesOf es name).getLast?.getD ⟨0, 0, 0, 0⟩⟩

/-- The interfaces that count. -/
def IsInterface (es : List IfEntry) (name : Bytes) : Prop := ∃ e ∈ es, Counts e ∧ ifName e = name

/-- No interface has two IPv4 or two hardware addresses. -/
def OneAddressEach (es : List IfEntry) : Prop := ∀ name, (addressesOf es name).length ≤ 1 ∧ (macsOf es name).length ≤ 1

end Licensecc.Spec
