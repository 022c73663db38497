import Verif.Model.HwIdentifier
/-!
# Model of the network adapter enumeration on Linux: src/library/os/linux/network.cpp
-/
namespace Licensecc

/-- `struct sockaddr` of an interface: `AF_INET` with `s_addr` as the little-endian machine sees it, `AF_PACKET` with the first
    six bytes of `sll_addr`, or another family. -/
inductive SockAddr where
  | inet (addr : UInt32)
  | packet (mac : Mac)
  | other
  deriving DecidableEq, Repr

/-- One element of the list `getifaddrs` delivers.  `name` has no NUL. -/
structure IfEntry where
  name : Bytes
  flags : UInt32
  addr : Option SockAddr
  /-- `ifa_data != NULL` -/
  hasData : Bool
  deriving DecidableEq, Repr

/-- What the operating system shows of the network.  `ifaddrs = none`: `getifaddrs` fails.  `order` is the iteration order of
    `unordered_map` (it depends on the hash function). -/
structure NetHost where
  ifaddrs : Option (List IfEntry)
  order : List (Bytes × Adapter) → List (Bytes × Adapter)

/-- The iteration visits every element once. -/
def NetHost.Ordered (h : NetHost) : Prop := ∀ l, (h.order l).Perm l

/-- `adapterByName`, as a list of pairs in insertion order. -/
abbrev AdapterMap := List (Bytes × Adapter)

/-- Insertion of a zeroed structure if the name is new, src/library/os/linux/network.cpp:67-72. -/
def AdapterMap.ensure (m : AdapterMap) (name : Bytes) : AdapterMap :=
  if m.any (fun p => p.1 = name) then m else m ++ [(name, ⟨⟨0, 0, 0, 0, 0, 0⟩, ⟨0, 0, 0, 0⟩⟩)]

/-- Writing through `currentAdapter`. -/
def AdapterMap.update (m : AdapterMap) (name : Bytes) (f : Adapter → Adapter) : AdapterMap :=
  m.map fun p => if p.1 = name then (p.1, f p.2) else p

/-- The bytes of the address, src/library/os/linux/network.cpp:86-89. -/
def ipOfAddr (a : UInt32) : Ipv4 :=
  ⟨(a &&& 0x000000ff).toUInt8, ((a &&& 0x0000ff00) >>> 8).toUInt8, ((a &&& 0x00ff0000) >>> 16).toUInt8,
   ((a &&& 0xff000000) >>> 24).toUInt8⟩

/-- One iteration of the loop, src/library/os/linux/network.cpp:58-100; LCC_ADAPTER_DESCRIPTION_LEN = NI_MAXHOST = 1025,
    IFF_LOOPBACK = 8. -/
def addIfEntry (e : IfEntry) (m : AdapterMap) : AdapterMap :=
  match e.addr with
  | none => m
  | some a =>
    if e.flags &&& 8 ≠ 0 then m
    else
      let name := e.name.take 1025
      let m := m.ensure name
      match a with
      | .inet ip => m.update name fun x => { x with ip := ipOfAddr ip }
      | .packet mac => if e.hasData then m.update name fun x => { x with mac := mac } else m
      | .other => m

/-- The adapters by name, src/library/os/linux/network.cpp:46-101. -/
def adapterMap (es : List IfEntry) : AdapterMap := es.foldl (fun m e => addIfEntry e m) []

/-- `getAdapterInfos`, src/library/os/linux/network.cpp:46-115.  The pairs are the map's keys and values; of the structure the
    fields `mac_address` and `ipv4_address` are kept (`description` is the key, `id` and `type` stay 0). -/
def getAdapterInfosNamed (h : NetHost) : FuncRet × List (Bytes × Adapter) :=
  match h.ifaddrs with
  | none => (.error, [])
  | some es =>
    let m := adapterMap es
    if m.length = 0 then (.notAvail, []) else (.ok, h.order m)

/-- The result as the identification strategies see it. -/
def getAdapterInfos (h : NetHost) : FuncRet × List Adapter :=
  let (r, l) := getAdapterInfosNamed h
  (r, l.map (·.2))

end Licensecc
