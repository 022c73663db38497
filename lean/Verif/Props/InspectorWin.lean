import Verif.Model.InspectorWin
import Verif.Props.InspectorMain
import Verif.Props.Windows
/-!
# C64, C70: lccinspector on Windows
-/
namespace Licensecc.Inspector
open Licensecc Spec Licensecc.Ini

/-- **C64**: about a Windows computer, too, the tool prints, for each of the four strategies, the identifier if there is one and NA if not, and
    then a text for each of the three facts about the environment. -/
theorem C64_windows {m : Machine} {h : Win.WinHost} {e : Env} {mem : Bytes} (hx : m.exec = h.execSummary) (he : h.mkEnv = .ok e)
    (ha : m.adapters ≠ .ub) (hd : m.disks ≠ .ub) (hlog : m.logOverruns = false) (hmem : mem.length = 20) :
    ∃ (text : Int → Bytes) (a b c : Bytes), identifyLinesWin m h mem = .ok [(b!"DEFAULT", text (-1)), (b!"MAC", text 0), (b!"IP", text 1),
        (b!"Disk", text 2), (b!"Virtualiz. class ", a), (b!"Virtualiz. detail", b), (b!"Cloud provider   ", c)]
      ∧ (∀ n t, PcIdentifier m n t → text n = t) ∧ (∀ n, (¬ ∃ t, PcIdentifier m n t) → text n = b!" NA")
      ∧ descByVirt (virtualization h.common e) = some a ∧ descByVirtDetail (virtualizationDetail h.common e) = some b
      ∧ descByCloudProvider (cloudProvider e) = some c := by
  have hexec : m.exec ≠ .ub := by rw [hx]; simp [Win.WinHost.execSummary, he]
  classical
  let text : Int → Bytes := fun n => if ht : ∃ t, PcIdentifier m n t then ht.choose else b!" NA"
  have text_spec : ∀ n, (∃ t, PcIdentifier m n t ∧ text n = t) ∨ (¬ (∃ t, PcIdentifier m n t) ∧ text n = b!" NA") := by
    intro n
    by_cases ht : ∃ t, PcIdentifier m n t
    · exact .inl ⟨ht.choose, ht.choose_spec, by simp only [text, dif_pos ht]⟩
    · exact .inr ⟨ht, by simp only [text, dif_neg ht]⟩
  clear_value text
  have hinfo : ∃ i : EnvInfo, i = ⟨cloudProvider e, virtualization h.common e, virtualizationDetail h.common e⟩ := ⟨_, rfl⟩
  obtain ⟨i, hi⟩ := hinfo
  have hstep : ∀ (n : Int) (label mem : Bytes) (ss : List (Int × Bytes)) (cache : Option Env) (info : Option EnvInfo), mem.length = 20 →
      (cache = none ∨ cache = some e) → ∃ mem', mem'.length = 20 ∧ identifyLoopWin m h ((n, label) :: ss) mem 20 cache info
        = (do let (lines, info) ← identifyLoopWin m h ss mem' 20 (some e) (some i)
              return ((label, text n) :: lines, info)) := by
    intro n label mem ss cache info hl hcache
    obtain ⟨q1, q2⟩ := C51_identify_pc m n mem 20 (by omega) (by omega) ha hd hexec hlog
    rcases text_spec n with ⟨t, h1, h2⟩ | ⟨h1, h2⟩
    · obtain ⟨l1, l2⟩ := identifier_text h1
      refine ⟨t ++ 0 :: mem.drop 15, by simp [l1, hl], ?_⟩
      have htw : (t ++ 0 :: mem.drop 15).takeWhile (fun x => !decide (x = 0)) = t := by
        rw [takeWhile_append_stops (fun c hc => by
          have : c ≠ 0 := fun hz => l2 (hz ▸ hc)
          simpa using this) (stops_cons (by simp))]
      rw [identifyLoopWin]
      rcases hcache with rfl | rfl <;> simp [identifyPcWin, q1 t h1, he, htw, h2, ← hi]
    · refine ⟨mem, hl, ?_⟩
      rw [identifyLoopWin]
      rcases hcache with rfl | rfl <;> simp [identifyPcWin, q2 h1, he, h2, ← hi]
  obtain ⟨a, ha'⟩ : ∃ a, descByVirt (virtualization h.common e) = some a := by cases virtualization h.common e <;> exact ⟨_, rfl⟩
  obtain ⟨b, hb'⟩ : ∃ b, descByVirtDetail (virtualizationDetail h.common e) = some b := by cases virtualizationDetail h.common e <;> exact ⟨_, rfl⟩
  obtain ⟨c, hc'⟩ : ∃ c, descByCloudProvider (cloudProvider e) = some c := by cases cloudProvider e <;> exact ⟨_, rfl⟩
  refine ⟨text, a, b, c, ?_, ?_, ?_, ha', hb', hc'⟩
  · unfold identifyLinesWin strategies
    obtain ⟨m1, l1, e1⟩ := hstep (-1) (b!"DEFAULT") mem [(0, b!"MAC"), (1, b!"IP"), (2, b!"Disk")] none none hmem (.inl rfl)
    obtain ⟨m2, l2, e2⟩ := hstep 0 (b!"MAC") m1 [(1, b!"IP"), (2, b!"Disk")] (some e) (some i) l1 (.inr rfl)
    obtain ⟨m3, l3, e3⟩ := hstep 1 (b!"IP") m2 [(2, b!"Disk")] (some e) (some i) l2 (.inr rfl)
    obtain ⟨m4, l4, e4⟩ := hstep 2 (b!"Disk") m3 [] (some e) (some i) l3 (.inr rfl)
    rw [e1, e2, e3, e4, identifyLoopWin]
    simp only [Outcome.ok_bind, Outcome.pure_eq, hi, ha', hb', hc', lookup]
    rfl
  · intro n t ht
    rcases text_spec n with ⟨t', h1, h2⟩ | ⟨h1, _⟩
    · rw [h2]; exact C51_identifier_unique m n _ _ h1 ht
    · exact absurd ⟨t, ht⟩ h1
  · intro n hn
    rcases text_spec n with ⟨t', h1, h2⟩ | ⟨_, h2⟩
    · exact absurd ⟨t', h1⟩ hn
    · exact h2

/-- **C70**: on a Windows computer whose adapters and firmware table are as they should be, and with a path for the log file that fits,
    the tool prints: the identifiers of the four strategies and the environment (C64), three lines about each usable adapter - or, if there
    is none, the number 1 -, four lines about the processor, five about the firmware - the maker of the board as the vendor of the system,
    maker and name of the system as the description of the BIOS -, and the reports on the licence files. -/
theorem C70_windows {cfg : Config} {l : Win.Windows} {c : Cpu} {mem : Bytes} (hmem : mem.length = 20)
    (hs : l.net.Sorts) {as : List Win.IpAdapter} (hd : Win.Spec.Delivers l.net as) (hp : Win.Spec.Proper as)
    {raw : Bytes} (hr : l.host.raw = some raw) {ss : List Win.Spec.Structure} (hf : Win.Spec.Firmware raw ss) (hss : ∀ s ∈ ss, s.Proper)
    (hlog : l.logOverruns = false) (arg : Option Bytes) (files : Nat → Bytes → Option Run) {lic : Printed}
    (hl : licencePart cfg arg (l.getenv (b!"LICENSE_LOCATION")) files = .ok lic) :
    ∃ ident net model cores,
      identifyLinesWin { l with host := l.host.WithCpu c }.os.machine (l.host.WithCpu c) mem = .ok ident ∧ ident.length = 7
      ∧ ((∀ a ∈ as, ¬ Win.Spec.Usable a) → net = [(.out, b!"problem in getting adapter informations:1")])
      ∧ ((∃ a ∈ as, Win.Spec.Usable a) → ∃ r : List (Bytes × Adapter), net = r.flatMap (fun p => adapterPart p.1 p.2)
          ∧ r.length = (as.filter (fun a => decide (Win.Spec.Usable a))).length ∧ ∀ d y, (d, y) ∈ r ↔ Win.Spec.Shows as d y)
      ∧ Numeral 16 (Win.cpuModel c).toNat model
      ∧ Numeral 10 (((ss.filter (fun s => s.type = 4)).getLast?.bind (·.byte 35)).elim 0 (·.toNat)) cores
      ∧ mainWin cfg l c mem arg files = .ok (ident.map (fun p => (.out, p.1 ++ b!":" ++ p.2)) ++ net
        ++ [(.out, b!"Cpu Vendor       :" ++ Win.cpuVendor c), (.out, b!"Cpu Brand        :" ++ Win.cpuBrand c),
            (.out, b!"Cpu hypervisor   :" ++ (if Win.hypervisorSet c then b!"1" else b!"0")), (.out, b!"Cpu model        :0x" ++ model),
            (.out, b!"Bios vendor      :" ++ Win.Spec.lastString ss 0 (·.string 4)),
            (.out, b!"Bios description :" ++ Win.Spec.lastString ss 1 (·.product)),
            (.out, b!"System vendor    :" ++ Win.Spec.lastString ss 2 (·.string 4)),
            (.out, b!"Cpu Vendor (dmi) :" ++ Win.Spec.lastString ss 4 (·.string 7)), (.out, b!"Cpu Cores  (dmi) :" ++ cores),
            (.out, b!"==================")] ++ lic) := by
  obtain ⟨d, d0, d1, d2, d3, d4, d5⟩ := Win.C62_table_read hf hss
  obtain ⟨ga, gb⟩ := Win.C61_adapters hs hd hp
  have hraw : (l.host.WithCpu c).raw = some raw := hr
  have he : (l.host.WithCpu c).mkEnv = .ok ⟨⟨d.biosVendor, d.biosDescription, d.sysVendor⟩, (l.host.WithCpu c).cpuVendor,
      (l.host.WithCpu c).cpuBrand, .none⟩ := by
    unfold Win.WinHost.mkEnv
    rw [hraw, d0]; rfl
  have hnet : ∃ q, l.net.getAdapterInfosNamed = .ok q
      ∧ ((∀ a ∈ as, ¬ Win.Spec.Usable a) → networkPart q = [(.out, b!"problem in getting adapter informations:1")])
      ∧ ((∃ a ∈ as, Win.Spec.Usable a) → ∃ r : List (Bytes × Adapter), networkPart q = r.flatMap (fun p => adapterPart p.1 p.2)
          ∧ r.length = (as.filter (fun a => decide (Win.Spec.Usable a))).length ∧ ∀ d y, (d, y) ∈ r ↔ Win.Spec.Shows as d y) := by
    by_cases hu : ∃ a ∈ as, Win.Spec.Usable a
    · obtain ⟨r, h1, h2, h3⟩ := ga hu
      refine ⟨_, h1, fun hn => ?_, fun _ => ⟨r, rfl, h2, h3⟩⟩
      obtain ⟨a, h4, h5⟩ := hu
      exact absurd h5 (hn a h4)
    · have hn : ∀ a ∈ as, ¬ Win.Spec.Usable a := fun a h4 h5 => hu ⟨a, h4, h5⟩
      exact ⟨_, gb hn, fun _ => rfl, fun h => absurd h hu⟩
  obtain ⟨q, hq, q1, q2⟩ := hnet
  obtain ⟨text, a, b, x, h1, _⟩ := C64_windows (m := { l with host := l.host.WithCpu c }.os.machine) (h := l.host.WithCpu c)
    (mem := mem) rfl he (by
      show (l.net.getAdapterInfos) ≠ .ub
      unfold Win.Net.getAdapterInfos
      rw [hq]; simp) (by simp [Win.WinOs.machine]) hlog hmem
  refine ⟨_, networkPart q, number 16 (Win.cpuModel c).toNat, number 10 d.cores, h1, rfl, q1, q2, C70_number (by omega) (by omega) _,
    d5 ▸ C70_number (by omega) (by omega) _, ?_⟩
  unfold mainWin
  dsimp only
  rw [h1, hq, hraw, d0, hl]
  have hb : ∀ x : Bool, number 10 x.toNat = if x then b!"1" else b!"0" := by decide
  simp only [Outcome.ok_bind, Outcome.pure_eq, cpuPart, dmiPart, hb, ← d1, ← d2, ← d3, ← d4, List.append_assoc, List.cons_append,
    List.nil_append]

/-- **C70** (the property "the tool tells that there is no network" fails on Windows): where the system answers that there is no adapter
    the tool never comes to an end in order. -/
theorem C70_windows_no_adapter {cfg : Config} {l : Win.Windows} {c : Cpu} {mem : Bytes} (ha : l.net.alloc = true)
    (hf : l.net.first = .other) (arg : Option Bytes) (files : Nat → Bytes → Option Run) (x : Printed) :
    mainWin cfg l c mem arg files ≠ .ok x := by
  intro h
  unfold mainWin at h
  dsimp only at h
  obtain ⟨ident, _, h⟩ := Outcome.bind_eq_ok.mp h
  rw [Win.C61_no_adapter_ub ha hf] at h
  simp at h

/-- **C70**: without a firmware table the lines about the firmware are empty, and there are 0 cores. -/
theorem C70_windows_no_table {cfg : Config} {l : Win.Windows} {c : Cpu} {mem : Bytes} (hr : l.host.raw = none)
    (arg : Option Bytes) (files : Nat → Bytes → Option Run) {x : Printed} (h : mainWin cfg l c mem arg files = .ok x) :
    ∃ before after, x = before ++ [(.out, b!"Bios vendor      :"), (.out, b!"Bios description :"), (.out, b!"System vendor    :"),
      (.out, b!"Cpu Vendor (dmi) :"), (.out, b!"Cpu Cores  (dmi) :0"), (.out, b!"==================")] ++ after := by
  unfold mainWin at h
  dsimp only at h
  obtain ⟨ident, _, h⟩ := Outcome.bind_eq_ok.mp h
  obtain ⟨net, _, h⟩ := Outcome.bind_eq_ok.mp h
  rw [show (l.host.WithCpu c).raw = none from hr] at h
  obtain ⟨d, h1, h⟩ := Outcome.bind_eq_ok.mp h
  obtain ⟨lic, _, h⟩ := Outcome.bind_eq_ok.mp h
  cases h1
  simp only [Outcome.pure_eq, Outcome.ok.injEq] at h
  have h0 : number 10 0 = b!"0" := by decide
  refine ⟨ident.map (fun p => (.out, p.1 ++ b!":" ++ p.2)) ++ networkPart net
    ++ cpuPart (Win.cpuVendor c) (Win.cpuBrand c) (Win.hypervisorSet c) (Win.cpuModel c), lic, ?_⟩
  rw [← h]
  simp [dmiPart, Win.emptyDmi, h0]

/-! ### Concrete cases -/

/-- `Win.sampleWindows` with the sample firmware and processor. -/
def sampleTool : Win.Windows := { Win.sampleWindows with host := { Win.sampleWindows.host with raw := some Win.sampleRaw } }

example : sampleTool.net.Sorts ∧ (∃ as, Win.Spec.Delivers sampleTool.net as ∧ Win.Spec.Proper as ∧ ∃ a ∈ as, Win.Spec.Usable a)
    ∧ sampleTool.logOverruns = false ∧ Win.Spec.Firmware Win.sampleRaw Win.sampleStructures :=
  ⟨Win.sortByScore_spec, ⟨_, .first rfl rfl, by
    intro a ha
    simp only [List.mem_cons, List.not_mem_nil, or_false] at ha
    rcases ha with rfl | rfl | rfl | rfl
    · exact ⟨⟨10, 8, 0, 6⟩, by decide⟩
    · exact ⟨⟨192, 168, 0, 25⟩, by decide⟩
    · exact ⟨⟨0, 0, 0, 0⟩, by decide⟩
    · exact ⟨⟨0, 0, 0, 0⟩, by decide⟩,
    ⟨true, b!"TAP VPN adapter", 6, [0, 255, 1, 2, 3, 4, 0, 0], b!"10.8.0.6"⟩, by simp, rfl, 255, by decide, by decide⟩,
   by decide +kernel, ⟨_, _, _, _, _, [2, 4, 0], rfl, rfl, by decide +kernel⟩⟩

example : mainWin sampleConfig sampleTool kvmCpu (List.replicate 20 7) none (fun _ _ => none) = .ok
    [(.out, b!"DEFAULT:AAAC-QqwR-AAI="), (.out, b!"MAC:AAAC-QqwR-AAI="), (.out, b!"IP:ACDA-qAAZ-Kio="), (.out, b!"Disk:AFPC-saAA-AAA="),
      (.out, b!"Virtualiz. class :Virtual machine"), (.out, b!"Virtualiz. detail:KVM"), (.out, b!"Cloud provider   :Provider unknown"),
      (.out, b!"Network adapter [0]: Intel(R) Ethernet"), (.out, b!"   ip address [25-0-168-192]"),
      (.out, b!"   mac address [2:42:ac:11:0:2]"), (.out, b!"Network adapter [0]: TAP VPN adapter"),
      (.out, b!"   ip address [6-0-8-10]"), (.out, b!"   mac address [0:ff:1:2:3:4]"), (.out, b!"Cpu Vendor       :GenuineIntel"),
      (.out, b!"Cpu Brand        :Common KVM processor"), (.out, b!"Cpu hypervisor   :1"), (.out, b!"Cpu model        :0xf61"),
      (.out, b!"Bios vendor      :Phoenix"), (.out, b!"Bios description :VMware, Inc.VMware Virtual Platform"),
      (.out, b!"System vendor    :Intel Corporation"), (.out, b!"Cpu Vendor (dmi) :GenuineIntel"), (.out, b!"Cpu Cores  (dmi) :8"),
      (.out, b!"==================")] := by
  decide +kernel

end Licensecc.Inspector
