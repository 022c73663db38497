import Verif.Spec.Os
import Verif.Props.Network
import Verif.Props.Blkid
import Verif.Props.ExecEnv
/-!
# C55: identifiers of a real machine
-/
namespace Licensecc
open Spec

theorem adapters_kept {n n' : NetHost} (ho : n.Ordered) (ho' : n'.Ordered) {es es' : List IfEntry} (he : n.ifaddrs = some es)
    (he' : n'.ifaddrs = some es') (hk : KeepsInterfaces es es') {as : List Adapter} (h : getAdapterInfos n = (.ok, as)) :
    ∃ as', getAdapterInfos n' = (.ok, as') ∧ ∀ a ∈ as, a ∈ as' := by
  unfold getAdapterInfos at h ⊢
  cases hg : getAdapterInfosNamed n with
  | mk r l =>
    rw [hg] at h
    simp only [Prod.mk.injEq] at h
    obtain ⟨rfl, rfl⟩ := h
    have hne : ∃ name, IsInterface es name := by
      refine Classical.byContradiction fun hno => ?_
      have := (C46_none n).1.mpr ⟨es, he, fun name hn => hno ⟨name, hn⟩⟩
      rw [hg] at this; simp at this
    obtain ⟨l1, h1, _, h3⟩ := C46_adapters ho he hne
    rw [hg] at h1
    simp only [Prod.mk.injEq, true_and] at h1
    subst h1
    obtain ⟨name, hn⟩ := hne
    obtain ⟨l2, k1, _, k3⟩ := C46_adapters ho' he' ⟨name, (hk name hn).1⟩
    refine ⟨l2.map (·.2), by rw [k1], fun a ha => ?_⟩
    obtain ⟨⟨nm, x⟩, hx, rfl⟩ := List.mem_map.mp ha
    obtain ⟨i1, rfl⟩ := (h3 _ _).mp hx
    obtain ⟨i2, i3⟩ := hk nm i1
    exact List.mem_map.mpr ⟨(nm, adapterOf es nm), (k3 _ _).mpr ⟨i2, i3.symm⟩, rfl⟩

/-- **C55**: an identifier made from a network address (strategies 0 and 1) is accepted as long as the interfaces that were there
    keep their addresses, in whatever order they are enumerated and stored, with whatever interfaces, disks and environment are
    added or changed. -/
theorem C55_network_identifier {o o' : Os} (ho : o.net.Ordered) (ho' : o'.net.Ordered) {es es' : List IfEntry}
    (he : o.net.ifaddrs = some es) (he' : o'.net.ifaddrs = some es') (hk : KeepsInterfaces es es') {strategy : Int}
    (hs : strategy = 0 ∨ strategy = 1) {s : Bytes} (hg : generateUserPcSignature o.machine strategy = .ok s) :
    validatePcSignature o'.machine s = .ok .licenseOk := by
  let m0 : Machine := { o.machine with disks := .ok (.notAvail, []) }
  have hg0 : generateUserPcSignature m0 strategy = .ok s := by
    rw [← hg]
    rcases hs with rfl | rfl <;> rfl
  refine C26_generated_identifier_validates m0 _ ⟨fun as h => ?_, fun ds h => by simp [m0] at h⟩ strategy s hg0
  have h' : getAdapterInfos o.net = (.ok, as) := by simpa [m0, Os.machine, he] using h
  obtain ⟨as', h1, h2⟩ := adapters_kept ho ho' he he' hk h'
  exact ⟨as', by simp [Os.machine, he', h1], h2⟩

/-- Disks that are kept are found again. -/
theorem disks_kept {o o' : Os} {es es' : List UuidEntry} (he : o.disks.byUuid = some es) (hne : usable es ≠ [])
    (he' : o'.disks.byUuid = some es') (hk : KeepsDisks o.disks o'.disks es es') {r : FuncRet} {ds' : List Disk}
    (hok : getDiskInfos o'.disks = .ok (r, ds')) {ds : List Disk} (hds : getDiskInfos o.disks = .ok (.ok, ds)) :
    ∃ ds', o'.machine.disks = .ok (.ok, ds') ∧ ∀ d ∈ ds, (d.snInit = true → ∃ d' ∈ ds', d'.snInit = true ∧ d'.sn = d.sn)
      ∧ (d.labelInit = true → ∃ d' ∈ ds', d'.labelInit = true ∧ d'.label = d.label) := by
  obtain ⟨_, c2, c3⟩ := C53_disks he hne hds
  have hget : ∀ d ∈ ds, ∃ n, (n, d.id) ∈ listedDisks es ∧ d.sn = serialOf n ∧ d.snInit = true
      ∧ (d.labelInit = true ↔ (lastLabel (labelDir o.disks) d.id).isSome = true)
      ∧ ∀ l, lastLabel (labelDir o.disks) d.id = some l → d.label = l := by
    intro d hd
    obtain ⟨i, hi, hdi⟩ := List.mem_iff_getElem.mp hd
    have hl : i < (listedDisks es).length := by unfold listedDisks; omega
    obtain ⟨x, x1, x2, x3, x4, x5, x6⟩ := c3 i (listedDisks es)[i].1 (listedDisks es)[i].2 (List.getElem?_eq_getElem hl)
    rw [List.getElem?_eq_getElem hi, hdi] at x1
    simp at x1; subst x1
    rw [← x2] at x5 x6
    exact ⟨_, by rw [x2]; exact List.getElem_mem hl, x3, x4, x5, x6⟩
  have hget' : ∀ n ino, (n, ino) ∈ listedDisks es' → ∃ d ∈ ds', r = .ok ∧ d.sn = serialOf n ∧ d.snInit = true
      ∧ (d.labelInit = true ↔ (lastLabel (labelDir o'.disks) ino).isSome = true)
      ∧ ∀ l, lastLabel (labelDir o'.disks) ino = some l → d.label = l := by
    intro n ino hm
    have hne' : usable es' ≠ [] := by
      intro h0
      unfold listedDisks at hm
      rw [h0] at hm; simp [firstPerInode] at hm
    obtain ⟨c1', _, c3'⟩ := C53_disks he' hne' hok
    obtain ⟨i, hi, hni⟩ := List.mem_iff_getElem.mp hm
    obtain ⟨x, x1, _, x3, x4, x5, x6⟩ := c3' i n ino (by rw [← hni]; exact List.getElem?_eq_getElem hi)
    exact ⟨x, List.mem_of_getElem? x1, c1', x3, x4, x5, x6⟩
  have hr : r = .ok := by
    cases hu : usable es with
    | nil => exact absurd hu hne
    | cons p l =>
      have hp : p ∈ listedDisks es := by simp [listedDisks, hu, firstPerInode]
      obtain ⟨ino', h1, _⟩ := hk p.1 p.2 hp
      obtain ⟨_, _, h3, _⟩ := hget' _ _ h1
      exact h3
  subst hr
  refine ⟨ds', by simp [Os.machine, hok], fun d hd => ?_⟩
  obtain ⟨n, n1, n2, n3, n4, n5⟩ := hget d hd
  obtain ⟨ino', h1, h2⟩ := hk n d.id n1
  obtain ⟨d', d1, _, d2, d3, d4, d5⟩ := hget' n ino' h1
  refine ⟨fun _ => ⟨d', d1, d3, by rw [d2, n2]⟩, fun hl => ?_⟩
  obtain ⟨l, hl'⟩ := Option.isSome_iff_exists.mp (n4.mp hl)
  have := h2 l hl'
  exact ⟨d', d1, d4.mpr (by rw [this]; rfl), by rw [d5 l this, n5 l hl']⟩

/-- **C55**: an identifier made from a disk (strategy 2) is accepted as long as the disks that were there are still among the first
    40 and keep their labels; inode numbers, directory order, fstab and everything else may change. -/
theorem C55_disk_identifier {o o' : Os} {es es' : List UuidEntry} (he : o.disks.byUuid = some es) (hne : usable es ≠ [])
    (he' : o'.disks.byUuid = some es') (hk : KeepsDisks o.disks o'.disks es es') {r : FuncRet} {ds' : List Disk}
    (hok : getDiskInfos o'.disks = .ok (r, ds')) {s : Bytes} (hg : generateUserPcSignature o.machine 2 = .ok s) :
    validatePcSignature o'.machine s = .ok .licenseOk := by
  let m0 : Machine := { o.machine with adapters := .ok (.notAvail, []) }
  have hg0 : generateUserPcSignature m0 2 = .ok s := by rw [← hg]; rfl
  refine C26_generated_identifier_validates m0 _ ⟨fun as h => by simp [m0] at h, fun ds h => ?_⟩ 2 s hg0
  have hds : getDiskInfos o.disks = .ok (.ok, ds) := by simpa [m0, Os.machine] using h
  exact disks_kept he hne he' hk hok hds

/-- **C55**: an identifier made with any strategy, the default one too, is accepted as long as the interfaces keep their addresses and
    the disks are still among the first 40 and keep their labels. -/
theorem C55_any_strategy {o o' : Os} (ho : o.net.Ordered) (ho' : o'.net.Ordered) {is is' : List IfEntry}
    (hi : o.net.ifaddrs = some is) (hi' : o'.net.ifaddrs = some is') (hki : KeepsInterfaces is is')
    {es es' : List UuidEntry} (he : o.disks.byUuid = some es) (hne : usable es ≠ []) (he' : o'.disks.byUuid = some es')
    (hkd : KeepsDisks o.disks o'.disks es es') {r : FuncRet} {ds' : List Disk} (hok : getDiskInfos o'.disks = .ok (r, ds'))
    {strategy : Int} {s : Bytes} (hg : generateUserPcSignature o.machine strategy = .ok s) :
    validatePcSignature o'.machine s = .ok .licenseOk := by
  refine C26_generated_identifier_validates _ _ ⟨fun as h => ?_, fun ds h => ?_⟩ strategy s hg
  · have h' : getAdapterInfos o.net = (.ok, as) := by simpa [Os.machine, hi] using h
    obtain ⟨as', h1, h2⟩ := adapters_kept ho ho' hi hi' hki h'
    exact ⟨as', by simp [Os.machine, hi', h1], h2⟩
  · have hds : getDiskInfos o.disks = .ok (.ok, ds) := by simpa [Os.machine] using h
    exact disks_kept he hne he' hkd hok hds

/-- **C53**: on a machine where an NTFS volume is met, asking for a disk identifier overruns memory; and so does the default
    strategy if the machine is not virtual. -/
theorem C53_identify_pc_overruns {o : Os} {before after : List UuidEntry} {n : Bytes} {ino : Int} {link : Bytes}
    (he : o.disks.byUuid = some (before ++ ⟨n, some ino, some link⟩ :: after)) (hhex : ∀ b ∈ n, IsHex b)
    (hfew : (firstPerInode (usable before)).length < 40) (mem : Bytes) (size : Nat) (hs : 19 < size) :
    identifyPc o.machine 2 (some mem) size = .ub
    ∧ ((∃ e, execSummary o.host = .ok e ∧ e.virtualization = .none) → o.strategyVar = none →
        identifyPc o.machine (-1) (some mem) size = .ub) := by
  have hd : o.machine.disks = .ub := C53_ntfs_overruns he hhex hfew
  have hg : generateFirst o.machine .disk = .ub := by
    unfold generateFirst
    rw [(alternativeIds_ub o.machine .disk).mpr ((disks_ub o.machine).mpr hd)]; rfl
  have h2 : generateUserPcSignature o.machine 2 = .ub := by
    simp [generateUserPcSignature, Machine.warnUnknown, strategyUnknown, selectStrategy, getStrategy, generatePcId, hg]
  refine ⟨by simp [identifyPc, hs, h2], ?_⟩
  rintro ⟨e, hx, hv⟩ hvar
  have hx' : o.machine.exec = .ok e := hx
  have hvar' : o.machine.strategyVar = none := hvar
  have h1 : generateUserPcSignature o.machine (-1) = .ub := by
    simp [generateUserPcSignature, Machine.warnUnknown, strategyUnknown, selectStrategy, hvar', getStrategy, generatePcId, hx', availableStrategies, hv, tryStrategies, hg]
  simp [identifyPc, hs, h1]

/-- **C44**: the mark matters: under the disk strategy the identifier is that of the first disk that is marked. -/
theorem C44_marked_disk_identifies {m : Machine} {ds : List Disk} (hd : m.disks = .ok (.ok, ds)) {i : Nat} {d : Disk}
    (hi : ds[i]? = some d) (hp : d.preferred = true) (hsn : d.snInit = true)
    (hfirst : ∀ (j : Nat) (x : Disk), j < i → ds[j]? = some x → x.preferred = false) :
    Identifies m 2 [64 + UInt8.ofNat (d.sn.s0.toNat % 32), d.sn.s1, d.sn.s2, d.sn.s3, d.sn.s4, d.sn.s5, d.sn.s6] := by
  have hsplit : ds = ds.take i ++ d :: ds.drop (i + 1) := by
    obtain ⟨h1, h2⟩ := List.getElem?_eq_some_iff.mp hi
    rw [← h2, ← List.drop_eq_getElem_cons h1, List.take_append_drop]
  have hpre : (ds.take i).filter (·.preferred) = [] := by
    rw [List.filter_eq_nil_iff]
    intro x hx
    obtain ⟨j, hj, hxj⟩ := List.mem_iff_getElem.mp hx
    rw [List.getElem_take] at hxj
    rw [List.length_take] at hj
    have := hfirst j x (by omega) (by rw [← hxj]; exact List.getElem?_eq_getElem (by omega))
    simp [this]
  refine .serial (before := []) (after := (ds.drop (i + 1)).filter (·.preferred) ++ ds.filter (fun d => !d.preferred)) hd ?_ (by simp) hsn
  unfold preferredFirst
  have : ds.filter (·.preferred) = d :: (ds.drop (i + 1)).filter (·.preferred) := by
    conv => lhs; rw [hsplit]
    rw [List.filter_append, hpre, List.nil_append, List.filter_cons_of_pos hp]
  rw [this]; rfl

/-! ## Example -/

def sampleOs : Os := ⟨sampleNet, sampleDisks, sampleHost, none, false⟩

/-- The same machine after a reboot: another order of everything, other inodes, a USB disk and a VPN interface. -/
def sampleOs' : Os where
  net := { ifaddrs := some [⟨b!"tun0", 4305, some (.inet 0x0100000a), false⟩, ⟨b!"eth0", 4163, some (.inet 0x0300a8c0), true⟩,
      ⟨b!"wlan0", 4163, some (.inet 0x0200a8c0), true⟩, ⟨b!"eth0", 4163, some (.packet ⟨2, 0x42, 0xac, 17, 0, 2⟩), true⟩], order := id }
  disks := ⟨some [⟨b!"DEAD-BEEF", some 9, some b!"../../sdb1"⟩,
      ⟨b!"c4e8dc21-6ab4-4d8f-9f5a-0123456789ab", some 15, some b!"../../sda2"⟩, ⟨b!"A1B2-C3D4", some 14, some b!"../../sda1"⟩],
    some [⟨b!"root", some 15⟩, ⟨b!"EFI", some 14⟩], none, none, none, none⟩
  host := sampleHost
  strategyVar := some b!"2"

example : (do let s ← generateUserPcSignature sampleOs.machine 0; validatePcSignature sampleOs'.machine s) = .ok .licenseOk
    ∧ (do let s ← generateUserPcSignature sampleOs.machine 1; validatePcSignature sampleOs'.machine s) = .ok .licenseOk
    ∧ (do let s ← generateUserPcSignature sampleOs.machine 2; validatePcSignature sampleOs'.machine s) = .ok .licenseOk := by decide +kernel

/-- The hypotheses of C55 hold for these two. -/
theorem sample_keepsDisks : KeepsDisks sampleOs.disks sampleOs'.disks (sampleOs.disks.byUuid.getD []) (sampleOs'.disks.byUuid.getD []) := by
  have h1 : listedDisks (sampleOs.disks.byUuid.getD []) = [(b!"A1B2-C3D4", 11), (b!"c4e8dc21-6ab4-4d8f-9f5a-0123456789ab", 12)] := by
    decide +kernel
  have h2 : listedDisks (sampleOs'.disks.byUuid.getD []) = [(b!"DEAD-BEEF", 9), (b!"c4e8dc21-6ab4-4d8f-9f5a-0123456789ab", 15),
      (b!"A1B2-C3D4", 14)] := by decide +kernel
  have l1 : lastLabel (labelDir sampleOs.disks) 11 = some b!"EFI" ∧ lastLabel (labelDir sampleOs'.disks) 14 = some b!"EFI"
      ∧ lastLabel (labelDir sampleOs.disks) 12 = some b!"root" ∧ lastLabel (labelDir sampleOs'.disks) 15 = some b!"root" := by decide +kernel
  unfold KeepsDisks
  rw [h1, h2]
  intro n ino hm
  simp only [List.mem_cons, Prod.mk.injEq, List.not_mem_nil, or_false] at hm
  rcases hm with ⟨rfl, rfl⟩ | ⟨rfl, rfl⟩
  · exact ⟨14, by simp, fun l hl => by rw [l1.1] at hl; rw [l1.2.1]; exact hl⟩
  · exact ⟨15, by simp, fun l hl => by rw [l1.2.2.1] at hl; rw [l1.2.2.2]; exact hl⟩

theorem sample_keepsInterfaces : KeepsInterfaces (sampleOs.net.ifaddrs.getD []) (sampleOs'.net.ifaddrs.getD []) := by
  rintro name ⟨e, he, hc, rfl⟩
  simp only [sampleOs, sampleNet, Option.getD_some, List.mem_cons, List.not_mem_nil, or_false] at he
  rcases he with rfl | rfl | rfl | rfl | rfl | rfl | rfl
  · exact absurd hc (by decide)
  · exact ⟨⟨⟨b!"eth0", 4163, some (.inet 0x0300a8c0), true⟩, by decide, by decide, rfl⟩, by decide +kernel⟩
  · exact absurd hc (by decide)
  · exact absurd hc (by decide)
  · exact ⟨⟨⟨b!"wlan0", 4163, some (.inet 0x0200a8c0), true⟩, by decide, by decide, rfl⟩, by decide +kernel⟩
  · exact ⟨⟨⟨b!"eth0", 4163, some (.inet 0x0300a8c0), true⟩, by decide, by decide, rfl⟩, by decide +kernel⟩
  · exact ⟨⟨⟨b!"eth0", 4163, some (.inet 0x0300a8c0), true⟩, by decide, by decide, rfl⟩, by decide +kernel⟩

end Licensecc
