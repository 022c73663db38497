import Verif.Model.ExecEnv
/-!
# Model of the network adapter enumeration on Windows: src/library/os/windows/network.cpp
-/
namespace Licensecc.Win

/-- `isdigit`. -/
def isDigit (c : UInt8) : Bool := 48 ≤ c && c ≤ 57

/-- The loop of `translate`, src/library/os/windows/network.cpp:36-50, over the characters before the NUL; `ip` is the array of
    four bytes, writing behind it is undefined behaviour. -/
def translate : Bytes → Nat → Bytes → Outcome Bytes
  | [], _, ip => .ok ip
  | c :: s, i, ip =>
    if isDigit c then
      if i < ip.length then translate s i (ip.set i (ip.getD i 0 * 10 + (c - 48))) else .ub
    else translate s (i + 1) ip

/-- `tolower` in the "C" locale. -/
def toLower (c : UInt8) : UInt8 := if 65 ≤ c ∧ c ≤ 90 then c + 32 else c

/-- `bads` and `goods`, src/library/os/windows/network.cpp:55-56. -/
def bads : List Bytes := [b!"virtual", b!"ppp", b!"tunnel", b!"vpn"]
def goods : List Bytes := [b!"realtek", b!"intel", b!"wireless"]

/-- `score`, src/library/os/windows/network.cpp:52-74, of a description (the text before the NUL). -/
def score (descr : Bytes) : Int :=
  let l := descr.map toLower
  (if descr = [] then 0 else 1) + (bads.map fun w => if contains w l then (-1 : Int) else 1).sum
    + (goods.map fun w => if contains w l then (1 : Int) else -1).sum

/-- An element of the list `GetAdaptersInfo` delivers. -/
structure IpAdapter where
  /-- `Type == MIB_IF_TYPE_ETHERNET` -/
  ethernet : Bool
  /-- the text in `Description` -/
  description : Bytes
  addressLength : Nat
  /-- `Address`, 8 bytes -/
  address : Bytes
  /-- the text in `IpAddressList.IpAddress.String`: the first address -/
  ip : Bytes
  deriving DecidableEq, Repr

/-- What a call of `GetAdaptersInfo` returns. -/
inductive Answer where
  | noError (l : List IpAdapter)
  | overflow
  | other
  deriving DecidableEq, Repr

/-- What Windows shows of the network.  `sort` is `std::sort` with `cmp` (it is not stable). -/
structure Net where
  /-- the first and the second allocation succeed -/
  alloc : Bool
  alloc2 : Bool
  /-- the first and the second call of `GetAdaptersInfo` -/
  first : Answer
  second : Answer
  sort : List (Bytes × Adapter) → List (Bytes × Adapter)

/-- `std::sort`: the same elements, higher scores first (`cmp`, src/library/os/windows/network.cpp:76). -/
def Net.Sorts (n : Net) : Prop :=
  ∀ l, (n.sort l).Perm l ∧ (n.sort l).Pairwise (fun a b => ¬ score b.1 > score a.1)

/-- The bytes of the hardware address that count: `size_to_be_copied`, src/library/os/windows/network.cpp:136. -/
def macBytes (a : IpAdapter) : Bytes := a.address.take (min 6 a.addressLength)

/-- Six bytes from the beginning of a zeroed array. -/
def toMac (b : Bytes) : Mac := ⟨b.getD 0 0, b.getD 1 0, b.getD 2 0, b.getD 3 0, b.getD 4 0, b.getD 5 0⟩
/-- Four bytes. -/
def toIpv4 (b : Bytes) : Ipv4 := ⟨b.getD 0 0, b.getD 1 0, b.getD 2 0, b.getD 3 0⟩

/-- One iteration of the loop, src/library/os/windows/network.cpp:130-150: what is appended. -/
def adapterOfEntry (a : IpAdapter) : Outcome (List (Bytes × Adapter)) :=
  if a.ethernet = false then .ok []
  else if a.addressLength = 0 then .ok []
  else if (macBytes a).all (· == 0) then .ok []
  else do
    let ip ← translate a.ip 0 [0, 0, 0, 0]
    .ok [(a.description.take 128, ⟨toMac (macBytes a), toIpv4 ip⟩)]

/-- The loop over the list, src/library/os/windows/network.cpp:130-151. -/
def adaptersOfList : List IpAdapter → Outcome (List (Bytes × Adapter))
  | [] => .ok []
  | a :: l => do
    let x ← adapterOfEntry a
    let y ← adaptersOfList l
    .ok (x ++ y)

/-- From line 129 on. -/
def Net.collect (n : Net) (l : List IpAdapter) : Outcome (FuncRet × List (Bytes × Adapter)) := do
  let t ← adaptersOfList l
  .ok (if t.length = 0 then (.notAvail, []) else (.ok, n.sort t))

/-- `getAdapterInfos`, src/library/os/windows/network.cpp:83-163.  If the first call of `GetAdaptersInfo` fails otherwise than with
    ERROR_BUFFER_OVERFLOW (for example ERROR_NO_DATA: there is no adapter), the loop goes through uninitialised memory. -/
def Net.getAdapterInfosNamed (n : Net) : Outcome (FuncRet × List (Bytes × Adapter)) :=
  if n.alloc = false then .ok (.error, [])
  else match n.first with
    | .noError l => n.collect l
    | .other => .ub
    | .overflow =>
      if n.alloc2 = false then .ok (.bufferTooSmall, [])
      else match n.second with
        | .noError l => n.collect l
        | .overflow => .ok (.bufferTooSmall, [])
        | .other => .ok (.error, [])

/-- The result as the identification strategies see it. -/
def Net.getAdapterInfos (n : Net) : Outcome (FuncRet × List Adapter) := do
  let (r, l) ← n.getAdapterInfosNamed
  .ok (r, l.map (·.2))

end Licensecc.Win
