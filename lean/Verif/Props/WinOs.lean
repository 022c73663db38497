import Verif.Spec.WinOs
import Verif.Props.WinNetwork
import Verif.Props.Smbios
import Verif.Props.Os
/-!
# C63: disks and identifiers on Windows
-/
namespace Licensecc.Win
open Licensecc.Spec Licensecc.Win.Spec

theorem serialBytes_eq (n : UInt32) : serialBytes n = ⟨serialByte n 0, serialByte n 1, serialByte n 2, serialByte n 3, 0, 0, 0, 0⟩ := by
  have h : ∀ k : UInt32, k.toUInt8 = UInt8.ofNat k.toNat := fun k => rfl
  unfold serialBytes serialByte
  simp only [h, UInt32.toNat_shiftRight, Nat.shiftRight_eq_div_pow]
  simp

theorem mem_disksOfDrives (ds : List Drive) : ∀ (n : Nat) (x : Disk), x ∈ disksOfDrives n ds →
    ∃ d ∈ ds, ∃ k, diskOfDrive k d = some x := by
  induction ds with
  | nil => intro n x h; simp [disksOfDrives] at h
  | cons d ds ih =>
    intro n x h
    rw [disksOfDrives] at h
    split at h
    · rename_i y hy
      rcases List.mem_cons.mp h with rfl | h
      · exact ⟨d, by simp, n, hy⟩
      · obtain ⟨e, he, k, hk⟩ := ih _ _ h; exact ⟨e, by simp [he], k, hk⟩
    · obtain ⟨e, he, k, hk⟩ := ih _ _ h; exact ⟨e, by simp [he], k, hk⟩

theorem diskOfDrive_iff (k : Nat) (d : Drive) (x : Disk) : diskOfDrive k d = some x ↔ d.fixed = true ∧ ∃ name serial fs,
    d.volume = some (name, serial, fs)
      ∧ x = ⟨k, name.take 259, serialBytes serial, true, fs.take 254, true, d.root.head? = some 67⟩ := by
  unfold diskOfDrive
  cases d.fixed <;> cases hv : d.volume <;> simp
  rename_i v
  obtain ⟨a, b, c⟩ := v
  constructor
  · intro h; exact ⟨_, _, _, rfl, h.symm⟩
  · rintro ⟨n, s, f, he, h⟩
    simp only [Prod.mk.injEq] at he
    obtain ⟨rfl, rfl, rfl⟩ := he
    exact h.symm

theorem disksOfDrives_mem (ds : List Drive) : ∀ (n : Nat) (d : Drive), d ∈ ds → d.fixed = true → ∀ name serial fs,
    d.volume = some (name, serial, fs) → ∃ k, (⟨k, name.take 259, serialBytes serial, true, fs.take 254, true,
      d.root.head? = some 67⟩ : Disk) ∈ disksOfDrives n ds := by
  induction ds with
  | nil => intro n d h; simp at h
  | cons e ds ih =>
    intro n d hd hf name serial fs hv
    rw [disksOfDrives]
    rcases List.mem_cons.mp hd with rfl | hd
    · have := (diskOfDrive_iff n d _).mpr ⟨hf, name, serial, fs, hv, rfl⟩
      rw [this]
      exact ⟨n, by simp⟩
    · split
      · obtain ⟨k, hk⟩ := ih (n + 1) d hd hf name serial fs hv
        exact ⟨k, by simp [hk]⟩
      · exact ih n d hd hf name serial fs hv

/-- The disks are the volumes: what the identifier code reads of them. -/
theorem disk_iff (l : List Drive) (serial : UInt32) (label : Bytes) : (∃ fs, Volume l serial fs ∧ label = fs.take 254) ↔
    ∃ x ∈ disksOfDrives 0 (l.take 40), x.sn = serialBytes serial ∧ x.snInit = true ∧ x.label = label ∧ x.labelInit = true := by
  constructor
  · rintro ⟨fs, ⟨d, hd, hf, name, hv⟩, rfl⟩
    obtain ⟨k, hk⟩ := disksOfDrives_mem _ 0 d hd hf name serial fs hv
    exact ⟨_, hk, rfl, rfl, rfl, rfl⟩
  · rintro ⟨x, hx, h1, h2, h3, h4⟩
    obtain ⟨d, hd, k, hk⟩ := mem_disksOfDrives _ _ _ hx
    obtain ⟨hf, name, serial', fs, hv, rfl⟩ := (diskOfDrive_iff _ _ _).mp hk
    have hs : serial' = serial := by
      simp only [serialBytes, DiskSn.mk.injEq] at h1
      obtain ⟨e0, e1, e2, e3, _⟩ := h1
      rw [← UInt32.toNat_inj]
      have a0 := congrArg UInt8.toNat e0
      have a1 := congrArg UInt8.toNat e1
      have a2 := congrArg UInt8.toNat e2
      have a3 := congrArg UInt8.toNat e3
      simp [Nat.shiftRight_eq_div_pow] at a0 a1 a2 a3
      have b1 := serial.toNat_lt
      have b2 := serial'.toNat_lt
      omega
    subst hs
    exact ⟨fs, ⟨d, hd, hf, name, hv⟩, h3.symm⟩

theorem machine_disks (o : WinOs) (ds : List Disk) : o.machine.disks = .ok (.ok, ds) ↔
    ds = disksOfDrives 0 (o.drives.take 40) ∧ ds ≠ [] := by
  simp only [WinOs.machine, getDiskInfos, Outcome.ok.injEq]
  split
  · rename_i h
    simp only [Prod.mk.injEq, true_and]
    constructor
    · rintro rfl; exact ⟨rfl, fun h0 => by rw [h0] at h; simp at h⟩
    · rintro ⟨rfl, _⟩; rfl
  · rename_i h
    simp only [Prod.mk.injEq]
    constructor
    · rintro ⟨h, _⟩; simp at h
    · rintro ⟨rfl, h1⟩
      exact absurd (List.length_eq_zero_iff.mp (by omega)) h1

/-- The first six characters of a text, filled up with zeros. -/
def Spec.six (t : Bytes) : Bytes := (t.takeWhile (· ≠ 0)).take 6 ++ List.replicate (6 - ((t.takeWhile (· ≠ 0)).take 6).length) 0

theorem six_take (fs : Bytes) : six (fs.take 254) = six fs := by
  have : ∀ (t : Bytes) (n : Nat), 6 ≤ n → ((t.take n).takeWhile (· ≠ 0)).take 6 = (t.takeWhile (· ≠ 0)).take 6 := by
    intro t n hn
    have key : ∀ (t : Bytes) (n k : Nat), k ≤ n → ((t.take n).takeWhile (· ≠ 0)).take k = (t.takeWhile (· ≠ 0)).take k := by
      intro t
      induction t with
      | nil => intro n k _; simp
      | cons c t ih =>
        intro n k hk
        cases n with
        | zero => have : k = 0 := by omega
                  subst this; simp
        | succ n =>
          rw [List.take_succ_cons]
          by_cases hc : c = 0
          · subst hc; simp [List.takeWhile_cons]
          · rw [List.takeWhile_cons_of_pos (by simpa using hc), List.takeWhile_cons_of_pos (by simpa using hc)]
            cases k with
            | zero => simp
            | succ k => rw [List.take_succ_cons, List.take_succ_cons, ih n k (by omega)]
    exact key t n 6 hn
  unfold six
  rw [this fs 254 (by omega)]

/-- **C63**: an identifier of the disk strategy is accepted exactly if some volume has its serial number in it - of the lowest byte
    only five bits count - or some volume has a file system whose name begins with its bytes (of the first only five bits
    count). -/
theorem C63_disk_accepted_iff (o : WinOs) {code : Bytes} {h : HwId} (hc : HwId.ofString code = .ok h) (hs : h.d1.toNat / 32 = 2) :
    validatePcSignature o.machine code = .ok .licenseOk ↔ ∃ serial fs, Volume o.drives serial fs ∧
      ((serial.toNat % 32 = h.d1.toNat % 32 ∧ serialByte serial 1 = h.d2 ∧ serialByte serial 2 = h.d3 ∧ serialByte serial 3 = h.d4
          ∧ h.d5 = 0 ∧ h.d6 = 0 ∧ h.d7 = 0)
       ∨ ∃ c0, six fs = [c0, h.d2, h.d3, h.d4, h.d5, h.d6] ∧ c0.toNat % 32 = h.d1.toNat % 32 ∧ h.d7 = 0) := by
  have hlow : ∀ n : UInt32, (serialByte n 0).toNat % 32 = n.toNat % 32 := by
    intro n; unfold serialByte; simp
  rw [C27_validate_iff]
  constructor
  · rintro ⟨h', hc', hm⟩
    rw [hc] at hc'
    injection hc' with hc'
    subst hc'
    rcases hm with ⟨h1, _⟩ | ⟨h1, _⟩ | ⟨_, ds, d, hds, hd, hm⟩
    · rw [h1] at hs; simp at hs
    · rw [h1] at hs; simp at hs
    · obtain ⟨rfl, _⟩ := (machine_disks o ds).mp hds
      obtain ⟨e, he, k, hk⟩ := mem_disksOfDrives _ _ _ hd
      obtain ⟨hf, name, serial, fs, hv, rfl⟩ := (diskOfDrive_iff _ _ _).mp hk
      refine ⟨serial, fs, ⟨e, he, hf, name, hv⟩, ?_⟩
      rcases hm with ⟨_, a0, a1, a2, a3, a4, a5, a6⟩ | ⟨_, l, pad, rfl, rfl, c0, b1, b2, b3⟩
      · left
        simp only [serialBytes_eq] at a0 a1 a2 a3 a4 a5 a6
        rw [hlow] at a0
        exact ⟨a0, a1, a2, a3, a4.symm, a5.symm, a6.symm⟩
      · right
        exact ⟨c0, by rw [← six_take]; exact b1, b2, b3⟩
  · rintro ⟨serial, fs, hv, hm⟩
    refine ⟨h, hc, .inr (.inr ⟨hs, ?_⟩)⟩
    obtain ⟨x, hx, x1, x2, x3, x4⟩ := (disk_iff o.drives serial (fs.take 254)).mp ⟨fs, hv, rfl⟩
    refine ⟨_, x, (machine_disks o _).mpr ⟨rfl, fun h0 => by rw [h0] at hx; simp at hx⟩, hx, ?_⟩
    rcases hm with ⟨a0, a1, a2, a3, a4, a5, a6⟩ | ⟨c0, b1, b2, b3⟩
    · left
      refine ⟨x2, ?_⟩
      rw [x1, serialBytes_eq]
      exact ⟨by rw [hlow]; exact a0, a1, a2, a3, a4.symm, a5.symm, a6.symm⟩
    · right
      rw [← six_take] at b1
      exact ⟨x4, _, _, rfl, rfl, c0, by rw [x3]; exact b1, b2, b3⟩

/-- **C63** (the property "a hardware identifier distinguishes machines" fails): one and the same client-signature is accepted on
    every Windows machine with an NTFS volume. -/
theorem C63_ntfs_everywhere (o : WinOs) {serial : UInt32} (hv : Volume o.drives serial (b!"NTFS")) :
    validatePcSignature o.machine (b!"AE5U-RlMA-AAA=") = .ok .licenseOk := by
  refine (C63_disk_accepted_iff o (h := ⟨0, 78, 84, 70, 83, 0, 0, 0⟩) (by decide +kernel) (by decide)).mpr
    ⟨serial, _, hv, .inr ⟨78, by decide, by decide, rfl⟩⟩

/-- **C63**: what identify_pc takes under the disk strategy is the serial number of the first drive C: that is fixed and readable. -/
theorem C63_drive_c_identifies (o : WinOs) {before after : List Drive} {d : Drive} {name fs : Bytes} {serial : UInt32}
    (hd : o.drives = before ++ d :: after) (hl : before.length < 40) (hc : d.root.head? = some 67) (hf : d.fixed = true)
    (hv : d.volume = some (name, serial, fs)) (hb : ∀ x ∈ before, x.root.head? ≠ some 67) :
    Identifies o.machine 2 [64 + UInt8.ofNat (serial.toNat % 32), serialByte serial 1, serialByte serial 2, serialByte serial 3, 0, 0, 0] := by
  have htake : o.drives.take 40 = before ++ d :: after.take (39 - before.length) := by
    rw [hd, List.take_append, List.take_of_length_le (by omega), show 40 - before.length = (39 - before.length) + 1 by omega,
      List.take_succ_cons]
  have key : ∀ (b : List Drive) (n : Nat) (rest : List Drive), (∀ x ∈ b, x.root.head? ≠ some 67) →
      ∃ (pre : List Disk) (m : Nat), disksOfDrives n (b ++ d :: rest) = pre ++ (⟨m, name.take 259, serialBytes serial, true, fs.take 254, true, true⟩ : Disk)
        :: disksOfDrives (m + 1) rest ∧ ∀ x ∈ pre, x.preferred = false := by
    intro b
    induction b with
    | nil =>
      intro n rest _
      refine ⟨[], n, ?_, by simp⟩
      have := (diskOfDrive_iff n d _).mpr ⟨hf, name, serial, fs, hv, rfl⟩
      rw [List.nil_append, disksOfDrives, this]
      simp [hc]
    | cons e b ih =>
      intro n rest hb
      have he := hb e (by simp)
      rw [List.cons_append, disksOfDrives]
      cases hx : diskOfDrive n e with
      | none =>
        simp only
        exact ih n rest (fun x hx => hb x (by simp [hx]))
      | some x =>
        simp only
        obtain ⟨pre, m, h1, h2⟩ := ih (n + 1) rest (fun x hx => hb x (by simp [hx]))
        obtain ⟨_, nm, sr, f, _, rfl⟩ := (diskOfDrive_iff _ _ _).mp hx
        refine ⟨_ :: pre, m, by rw [h1]; rfl, ?_⟩
        intro y hy
        rcases List.mem_cons.mp hy with rfl | hy
        · simpa using he
        · exact h2 y hy
  obtain ⟨pre, m, h1, h2⟩ := key before 0 (after.take (39 - before.length)) hb
  rw [← htake] at h1
  have hds : o.machine.disks = .ok (.ok, disksOfDrives 0 (o.drives.take 40)) :=
    (machine_disks o _).mpr ⟨rfl, by rw [h1]; simp⟩
  have := C44_marked_disk_identifies hds (i := pre.length)
    (d := ⟨m, name.take 259, serialBytes serial, true, fs.take 254, true, true⟩) (by rw [h1]; simp) rfl rfl (by
      intro j x hj hx
      rw [h1, List.getElem?_append_left hj] at hx
      exact h2 x (List.mem_of_getElem? hx))
  have hlow : (serialByte serial 0).toNat % 32 = serial.toNat % 32 := by unfold serialByte; simp
  simp only [serialBytes_eq, hlow] at this
  exact this

/-- **C63**: the identifier identify_pc produces by default on bare metal - neither cloud nor virtual machine - is the one of drive
    C:, if the environment variable is not set or holds no strategy number; if it holds 2, it is the same with the mark of the
    variable. -/
theorem C63_default_identifier (o : WinOs) {before after : List Drive} {d : Drive} {name fs : Bytes} {serial : UInt32}
    (hd : o.drives = before ++ d :: after) (hl : before.length < 40) (hc : d.root.head? = some 67) (hf : d.fixed = true)
    (hv : d.volume = some (name, serial, fs)) (hb : ∀ x ∈ before, x.root.head? ≠ some 67) {e : ExecSummary}
    (hx : o.host.execSummary = .ok e) (he : e.virtualization = .none) {n : Int} {used : Bool}
    (hu : StrategyUsed o.strategyVar (-1) n used) (hn : n = -1 ∨ n = 2) :
    PcIdentifier o.machine (-1) (dashed (rfc4648 ((if used then 64 else 0) :: [64 + UInt8.ofNat (serial.toNat % 32),
      serialByte serial 1, serialByte serial 2, serialByte serial 3, 0, 0, 0]))) := by
  have key := C63_drive_c_identifies o hd hl hc hf hv hb
  refine ⟨n, used, _, hu, ?_, rfl⟩
  rcases hn with rfl | rfl
  · exact .bareMetal hx he key
  · exact key

/-- **C63**: by default in a virtual machine outside the clouds it is the hardware address of the adapter listed first. -/
theorem C63_default_virtual (o : WinOs) (hs : o.net.Sorts) {l : List IpAdapter} (hd : Delivers o.net l) (hp : Proper l)
    (hne : ∃ a ∈ l, Usable a) {e : ExecSummary} (hx : o.host.execSummary = .ok e) (he : e.virtualization = .vm ∧ e.isCloud = false)
    (hu : o.strategyVar = none) : ∃ d x r, o.net.getAdapterInfosNamed = .ok (.ok, (d, x) :: r) ∧ Shows l d x ∧
      PcIdentifier o.machine (-1) (dashed (rfc4648 [0, 0, x.mac.m0, x.mac.m1, x.mac.m2, x.mac.m3, x.mac.m4, x.mac.m5])) := by
  obtain ⟨r, h1, _, h3⟩ := (C61_adapters hs hd hp).1 hne
  cases r with
  | nil =>
    obtain ⟨a, ha, hua⟩ := hne
    obtain ⟨ip, hip⟩ := hp a ha
    have := (h3 (a.description.take 128) ⟨toMac (macBytes a), ip⟩).mpr ⟨a, ha, hua, rfl, (hasMac_iff _ _).mpr rfl, hip⟩
    simp at this
  | cons y r =>
    obtain ⟨d, x⟩ := y
    have hsh := (h3 d x).mp (by simp)
    refine ⟨d, x, r, h1, hsh, -1, false, _, .unset rfl (by simp [show o.machine.strategyVar = o.strategyVar from rfl, hu]), ?_, rfl⟩
    have hm : o.machine.adapters = .ok (.ok, [] ++ x :: r.map (·.2)) := by
      simp [WinOs.machine, Net.getAdapterInfos, h1]
    refine .virtual hx (.inr he) (.mac hm (by simp) ?_)
    obtain ⟨a, _, ⟨_, b, hb, hb0⟩, _, hmac, _⟩ := hsh
    intro h0
    unfold HasMac at hmac
    rw [h0] at hmac
    have hlen : (a.address.take (min 6 a.addressLength)).length ≤ 6 := by rw [List.length_take]; omega
    generalize a.address.take (min 6 a.addressLength) = w at hmac hb hlen
    rw [List.take_append, List.take_of_length_le hlen] at hmac
    have : b ∈ ([0, 0, 0, 0, 0, 0] : Bytes) := by
      rw [hmac]; simp [hb]
    simp at this
    exact hb0 this

theorem adapters_extend {o o' : WinOs} (hs : o.net.Sorts) (hs' : o'.net.Sorts) {l l' : List IpAdapter}
    (hd : Delivers o.net l) (hd' : Delivers o'.net l') (hp : Proper l) (hp' : Proper l') (ha : KeepsAdapters l l')
    {as : List Adapter} (h : o.machine.adapters = .ok (.ok, as)) :
    ∃ as', o'.machine.adapters = .ok (.ok, as') ∧ ∀ a ∈ as, a ∈ as' := by
  have hm : ∀ (o : WinOs), o.machine.adapters = (do let (r, l) ← o.net.getAdapterInfosNamed; .ok (r, l.map (·.2))) := fun _ => rfl
  obtain ⟨c1, c2⟩ := C61_adapters hs hd hp
  obtain ⟨c1', _⟩ := C61_adapters hs' hd' hp'
  by_cases hu : ∃ a ∈ l, Usable a
  · obtain ⟨r, r1, _, r3⟩ := c1 hu
    rw [hm, r1] at h
    simp only [Outcome.ok_bind, Outcome.ok.injEq, Prod.mk.injEq, true_and] at h
    have hu' : ∃ a ∈ l', Usable a := by
      obtain ⟨a, a1, a2⟩ := hu
      obtain ⟨ip, hip⟩ := hp a a1
      obtain ⟨d', b, b1, b2, _⟩ := ha _ ⟨toMac (macBytes a), ip⟩ ⟨a, a1, a2, rfl, (hasMac_iff _ _).mpr rfl, hip⟩
      exact ⟨b, b1, b2⟩
    obtain ⟨r', q1, _, q3⟩ := c1' hu'
    refine ⟨r'.map (·.2), by rw [hm, q1]; rfl, fun a hma => ?_⟩
    rw [← h] at hma
    obtain ⟨⟨d, x⟩, hx, rfl⟩ := List.mem_map.mp hma
    obtain ⟨d', hd'⟩ := ha d x ((r3 _ _).mp hx)
    exact List.mem_map.mpr ⟨(d', x), (q3 _ _).mpr hd', rfl⟩
  · rw [hm, c2 (fun a h1 h2 => hu ⟨a, h1, h2⟩)] at h
    simp at h

theorem disks_extend {o o' : WinOs} (hv : KeepsVolumes o.drives o'.drives) {ds : List Disk} (h : o.machine.disks = .ok (.ok, ds)) :
    ∃ ds', o'.machine.disks = .ok (.ok, ds') ∧ ∀ d ∈ ds, (d.snInit = true → ∃ d' ∈ ds', d'.snInit = true ∧ d'.sn = d.sn)
      ∧ (d.labelInit = true → ∃ d' ∈ ds', d'.labelInit = true ∧ d'.label = d.label) := by
  obtain ⟨rfl, hne⟩ := (machine_disks o ds).mp h
  have hkeep : ∀ d ∈ disksOfDrives 0 (o.drives.take 40), ∃ d' ∈ disksOfDrives 0 (o'.drives.take 40),
      (d'.snInit = true ∧ d'.sn = d.sn) ∧ d'.labelInit = true ∧ d'.label = d.label := by
    intro d hd
    obtain ⟨e, he, k, hk⟩ := mem_disksOfDrives _ _ _ hd
    obtain ⟨hf, name, serial, fs, hvol, rfl⟩ := (diskOfDrive_iff _ _ _).mp hk
    obtain ⟨x, hx, x1, x2, x3, x4⟩ := (disk_iff o'.drives serial (fs.take 254)).mp
      ⟨fs, hv _ _ ⟨e, he, hf, name, hvol⟩, rfl⟩
    exact ⟨x, hx, ⟨x2, x1⟩, x4, x3⟩
  refine ⟨_, (machine_disks o' _).mpr ⟨rfl, fun h0 => ?_⟩, fun d hd => ?_⟩
  · cases hdd : disksOfDrives 0 (o.drives.take 40) with
    | nil => exact hne hdd
    | cons d _ =>
      obtain ⟨d', hd', _⟩ := hkeep d (by rw [hdd]; simp)
      rw [h0] at hd'; simp at hd'
  · obtain ⟨d', h1, h2, h3⟩ := hkeep d hd
    exact ⟨fun _ => ⟨d', h1, h2⟩, fun _ => ⟨d', h1, h3⟩⟩

/-- **C63**: an identifier made on Windows (under any strategy) is accepted as long as adapters keep their addresses and
    volumes their serial numbers and file systems, in whatever order they are listed and with whatever is added. -/
theorem C63_identifier_kept {o o' : WinOs} (hs : o.net.Sorts) (hs' : o'.net.Sorts) {l l' : List IpAdapter}
    (hd : Delivers o.net l) (hd' : Delivers o'.net l') (hp : Proper l) (hp' : Proper l') (ha : KeepsAdapters l l')
    (hv : KeepsVolumes o.drives o'.drives) {strategy : Int} {s : Bytes}
    (hg : generateUserPcSignature o.machine strategy = .ok s) : validatePcSignature o'.machine s = .ok .licenseOk := by
  refine C26_generated_identifier_validates o.machine _ 
    ⟨fun as h => adapters_extend hs hs' hd hd' hp hp' ha h, fun ds h => disks_extend hv h⟩ strategy s hg

/-! ### Concrete cases -/

def sampleWin : WinOs where
  net := sampleNetWin
  drives := [⟨b!"A:\\", false, none⟩, ⟨b!"D:\\", true, some (b!"Data", 0x12345678, b!"NTFS")⟩,
    ⟨b!"C:\\", true, some (b!"Windows", 0xA0B1C2D3, b!"NTFS")⟩]
  host := ⟨some sampleRaw, b!"GenuineIntel", b!"Intel(R) Xeon(R)", false, vmVendors, virtualCpuNames⟩
  strategyVar := none

/-- Another machine. -/
def sampleWin' : WinOs := { sampleWin with drives := [⟨b!"C:\\", true, some (b!"OS", 1, b!"NTFS")⟩] }

example : generateUserPcSignature sampleWin.machine (-1) = .ok (b!"AFPC-saAA-AAA=") ∧
    validatePcSignature sampleWin.machine (b!"AFPC-saAA-AAA=") = .ok .licenseOk ∧
    validatePcSignature sampleWin'.machine (b!"AFPC-saAA-AAA=") = .ok .identifiersMismatch ∧
    validatePcSignature sampleWin'.machine (b!"AE5U-RlMA-AAA=") = .ok .licenseOk := by decide +kernel

example : sampleWin.host.execSummary = .ok ⟨.none, false, false⟩ ∧ StrategyUsed sampleWin.strategyVar (-1) (-1) false :=
  ⟨by decide +kernel, .unset rfl (by simp [sampleWin])⟩

/-- The same in a virtual machine. -/
def sampleWinVm : WinOs := { sampleWin with host := { sampleWin.host with hypervisor := true } }

example : sampleWinVm.host.execSummary = .ok ⟨.vm, false, false⟩ ∧
    generateUserPcSignature sampleWinVm.machine (-1) = .ok (b!"AAAC-QqwR-AAI=") := by decide +kernel

example : Volume sampleWin.drives 0xA0B1C2D3 (b!"NTFS") := 
  ⟨⟨b!"C:\\", true, some (b!"Windows", 0xA0B1C2D3, b!"NTFS")⟩, by decide, rfl, b!"Windows", rfl⟩

end Licensecc.Win
