import Verif.Model.WinNetwork
import Verif.Spec.ExecEnv
/-!
# Specification of the network adapter enumeration on Windows
-/
namespace Licensecc.Win.Spec
open Licensecc.Spec

/-- A number in decimal notation. -/
def decimal (n : Nat) : Bytes := (Nat.toDigits 10 n).map fun c => UInt8.ofNat c.toNat

/-- An IPv4 address in dotted notation. -/
def dotted (a : Ipv4) : Bytes :=
  decimal a.i0.toNat ++ b!"." ++ decimal a.i1.toNat ++ b!"." ++ decimal a.i2.toNat ++ b!"." ++ decimal a.i3.toNat

/-- The list is what Windows delivers: addresses in dotted notation. -/
def Proper (l : List IpAdapter) : Prop := ∀ a ∈ l, ∃ ip, a.ip = dotted ip

/-- An ethernet adapter whose hardware address is not zero. -/
def Usable (a : IpAdapter) : Prop := a.ethernet = true ∧ ∃ b ∈ a.address.take (min 6 a.addressLength), b ≠ 0

instance (a : IpAdapter) : Decidable (Usable a) := by unfold Usable; infer_instance

/-- Six bytes of hardware address: what there is, then zeros. -/
def HasMac (a : IpAdapter) (m : Mac) : Prop :=
  [m.m0, m.m1, m.m2, m.m3, m.m4, m.m5] = (a.address.take (min 6 a.addressLength) ++ List.replicate 6 0).take 6

/-- What is known of an adapter of the list: description, hardware address, IPv4 address. -/
def Shows (l : List IpAdapter) (d : Bytes) (x : Adapter) : Prop :=
  ∃ a ∈ l, Usable a ∧ d = a.description.take 128 ∧ HasMac a x.mac ∧ a.ip = dotted x.ip

/-- Every capital letter and its small letter. -/
def letters : List (UInt8 × UInt8) := (b!"ABCDEFGHIJKLMNOPQRSTUVWXYZ").zip (b!"abcdefghijklmnopqrstuvwxyz")

/-- `s` is the word, in whatever case. -/
inductive Spells : Bytes → Bytes → Prop
  | nil : Spells [] []
  | same {s w : Bytes} (c : UInt8) : Spells s w → Spells (c :: s) (c :: w)
  | capital {s w : Bytes} {x c : UInt8} : (x, c) ∈ letters → Spells s w → Spells (x :: s) (c :: w)

/-- The word occurs, in whatever case. -/
def Says (d : Bytes) (word : Bytes) : Prop := ∃ s, Mentions d s ∧ Spells s word

/-- Words of real cards, and of virtual ones. -/
def SaysReal (d : Bytes) : Prop := Says d (b!"realtek") ∨ Says d (b!"intel") ∨ Says d (b!"wireless")
def SaysVirtual (d : Bytes) : Prop := Says d (b!"virtual") ∨ Says d (b!"ppp") ∨ Says d (b!"tunnel") ∨ Says d (b!"vpn")

/-- Words of real cards and of virtual ones, as lists. -/
def realWords : List Bytes := [b!"realtek", b!"intel", b!"wireless"]
def virtualWords : List Bytes := [b!"virtual", b!"ppp", b!"tunnel", b!"vpn"]

/-- A description has `p` points: one if there is any, two for every word of a real card in it, minus two for every word of a
    virtual one. -/
def Points (d : Bytes) (p : Int) : Prop :=
  ∃ real virtual : List Bytes, real.Sublist realWords ∧ virtual.Sublist virtualWords
    ∧ (∀ w ∈ realWords, w ∈ real ↔ Says d w) ∧ (∀ w ∈ virtualWords, w ∈ virtual ↔ Says d w)
    ∧ p = (if d = [] then 0 else 1) + 2 * real.length - 2 * virtual.length

/-- The list Windows finally delivers. -/
inductive Delivers (n : Net) : List IpAdapter → Prop
  | first {l} : n.alloc = true → n.first = .noError l → Delivers n l
  | second {l} : n.alloc = true → n.first = .overflow → n.alloc2 = true → n.second = .noError l → Delivers n l

end Licensecc.Win.Spec
