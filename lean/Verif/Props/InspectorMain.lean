import Verif.Spec.InspectorMain
import Verif.Props.Inspector
import Verif.Props.Network
import Verif.Props.CpuInfo
import Verif.Props.Linux
/-!
# C70: the rest of lccinspector
-/
namespace Licensecc.Inspector
open Licensecc Spec

/-! ## Numbers -/

theorem digit_spec {d base : Nat} (hd : d < base) (hb : base ≤ 16) : IsDigit base (digit d) ∧ digitValue (digit d) = d := by
  have h : ∀ d, d < 16 → (48 ≤ (digit d).toNat ∧ (digit d).toNat ≤ 57 ∨ 97 ≤ (digit d).toNat ∧ (digit d).toNat ≤ 102)
      ∧ digitValue (digit d) = d := by decide
  obtain ⟨h1, h2⟩ := h d (by omega)
  exact ⟨⟨h1, by omega⟩, h2⟩

theorem digitsRev_spec {base : Nat} (h2 : 2 ≤ base) (hb : base ≤ 16) : ∀ (fuel n : Nat), n < fuel →
    digitsRev base fuel n ≠ [] ∧ (∀ c ∈ digitsRev base fuel n, IsDigit base c)
    ∧ (digitsRev base fuel n).foldr (fun c v => v * base + digitValue c) 0 = n := by
  intro fuel
  induction fuel with
  | zero => intro n h; omega
  | succ fuel ih =>
    intro n hn
    unfold digitsRev
    by_cases h : n < base
    · rw [if_pos h]
      obtain ⟨h1, h3⟩ := digit_spec h hb
      refine ⟨by simp, by simpa using h1, by simp [h3]⟩
    · rw [if_neg h]
      have hm : n % base < base := Nat.mod_lt _ (by omega)
      obtain ⟨h1, h3⟩ := digit_spec hm hb
      have hlt : n / base < fuel := by
        have := Nat.div_lt_self (n := n) (k := base) (by omega) (by omega)
        omega
      obtain ⟨_, i2, i3⟩ := ih (n / base) hlt
      refine ⟨by simp, ?_, ?_⟩
      · intro c hc
        rcases List.mem_cons.mp hc with rfl | hc
        · exact h1
        · exact i2 c hc
      · rw [List.foldr_cons, i3, h3, Nat.mul_comm]
        exact Nat.div_add_mod n base

/-- **C70**: numbers are printed as numerals. -/
theorem C70_number {base : Nat} (h2 : 2 ≤ base) (hb : base ≤ 16) (n : Nat) : Numeral base n (number base n) := by
  obtain ⟨h1, h3, h4⟩ := digitsRev_spec h2 hb (n + 1) n (by omega)
  refine ⟨by simpa [number] using h1, by simpa [number] using h3, ?_⟩
  unfold number
  rw [List.foldl_reverse]; exact h4

theorem numeral_value {base n m : Nat} {t : Bytes} (h : Numeral base n t) (h' : Numeral base m t) : n = m := h.2.2.symm.trans h'.2.2

theorem not_sep {base : Nat} {n : Nat} {t : Bytes} (h : Numeral base n t) : (45 : UInt8) ∉ t ∧ (58 : UInt8) ∉ t := by
  constructor <;> intro hc <;> obtain ⟨h1, _⟩ := h.2.1 _ hc <;> simp at h1

theorem split_at_sep {s : UInt8} : ∀ {t t' u u' : Bytes}, s ∉ t → s ∉ t' → t ++ s :: u = t' ++ s :: u' → t = t' ∧ u = u'
  | [], [], _, _, _, _, h => by simpa using h
  | [], y :: t', _, _, _, h', h => by simp at h; exact absurd h.1 (fun e => h' (by simp [e]))
  | x :: t, [], _, _, h', _, h => by simp at h; exact absurd h.1.symm (fun e => h' (by simp [e]))
  | x :: t, y :: t', u, u', h1, h2, h => by
    simp only [List.cons_append, List.cons.injEq] at h
    obtain ⟨e1, e2⟩ := split_at_sep (t := t) (t' := t') (fun e => h1 (by simp [e])) (fun e => h2 (by simp [e])) h.2
    exact ⟨by rw [h.1, e1], e2⟩

theorem joined_unique {base : Nat} {s : UInt8} (hs : s = 45 ∨ s = 58) {ns : List Nat} {t : Bytes} (h : Joined base s ns t) :
    ∀ {ms : List Nat}, Joined base s ms t → ns = ms := by
  have hno : ∀ {n : Nat} {t : Bytes}, Numeral base n t → s ∉ t := by
    intro n t hn; rcases hs with hs | hs <;> rw [hs]
    · exact (not_sep hn).1
    · exact (not_sep hn).2
  induction h with
  | one h1 =>
    intro ms h'
    cases h' with
    | one h2 => rw [numeral_value h1 h2]
    | more h2 h3 => exact absurd (by simp) (hno h1)
  | @more n ns t u h1 h2 ih =>
    intro ms h'
    generalize hx : t ++ s :: u = x at h'
    cases h' with
    | one h3 => subst hx; exact absurd (by simp) (hno h3)
    | more h3 h4 =>
      obtain ⟨rfl, rfl⟩ := split_at_sep (hno h1) (hno h3) hx
      rw [numeral_value h1 h3, ih h4]

/-! ## The network -/

/-- **C70**: a text tells the IPv4 or the hardware address. -/
theorem C70_texts_tell : (∀ {a b : Ipv4} {t : Bytes}, IpText a t → IpText b t → a = b)
    ∧ ∀ {m n : Mac} {t : Bytes}, MacText m t → MacText n t → m = n := by
  constructor
  · intro a b t h h'
    have := joined_unique (.inl rfl) h h'
    simp only [List.cons.injEq, and_true, UInt8.toNat_inj] at this
    cases a; cases b; simp_all
  · intro a b t h h'
    have := joined_unique (.inr rfl) h h'
    simp only [List.cons.injEq, and_true, UInt8.toNat_inj] at this
    cases a; cases b; simp_all

theorem ipText_number (a : Ipv4) : IpText a (number 10 a.i0.toNat ++ b!"-" ++ number 10 a.i1.toNat ++ b!"-" ++ number 10 a.i2.toNat
    ++ b!"-" ++ number 10 a.i3.toNat) := by
  have hn := fun n => C70_number (base := 10) (by omega) (by omega) n
  have := Joined.more (sep := 45) (hn a.i0.toNat) (.more (hn a.i1.toNat) (.more (hn a.i2.toNat) (.one (hn a.i3.toNat))))
  unfold IpText
  simpa using this

theorem macText_number (m : Mac) : MacText m (number 16 m.m0.toNat ++ b!":" ++ number 16 m.m1.toNat ++ b!":" ++ number 16 m.m2.toNat
    ++ b!":" ++ number 16 m.m3.toNat ++ b!":" ++ number 16 m.m4.toNat ++ b!":" ++ number 16 m.m5.toNat) := by
  have hn := fun n => C70_number (base := 16) (by omega) (by omega) n
  have := Joined.more (sep := 58) (hn m.m0.toNat) (.more (hn m.m1.toNat) (.more (hn m.m2.toNat) (.more (hn m.m3.toNat)
    (.more (hn m.m4.toNat) (.one (hn m.m5.toNat))))))
  unfold MacText
  simpa using this

/-- **C70** (the property "the addresses are printed as they are" fails for IPv4): about an adapter the tool prints its name, the IPv4
    address backwards, and the hardware address. -/
theorem C70_adapter (name : Bytes) (h0 : 0 ∉ name) (a : Adapter) : ∃ ip mac, adapterPart name a = adapterLines name ip mac
    ∧ IpText ⟨a.ip.i3, a.ip.i2, a.ip.i1, a.ip.i0⟩ ip ∧ MacText a.mac mac
    ∧ (IpText a.ip ip ↔ a.ip.i0 = a.ip.i3 ∧ a.ip.i1 = a.ip.i2) := by
  have hi := ipText_number ⟨a.ip.i3, a.ip.i2, a.ip.i1, a.ip.i0⟩
  refine ⟨_, _, ?_, hi, macText_number a.mac, ?_⟩
  · have : name.takeWhile (fun x => !decide (x = 0)) = name := by
      have := (textOf_iff name name).mp ⟨h0, .inl rfl⟩
      simpa using this.symm
    simp only [adapterPart, adapterLines, ne_eq, decide_not, this]
    have h0 : number 10 0 = b!"0" := by decide
    rw [h0]
    simp
  · constructor
    · intro h
      have := C70_texts_tell.1 h hi
      generalize a.ip = x at *
      cases x
      simp only [Ipv4.mk.injEq] at this
      grind
    · rintro ⟨h1, h2⟩
      generalize a.ip = x at *
      cases x
      simp only at h1 h2
      subst h1 h2
      exact hi

/-- **C70**: with a network, each interface that counts is printed once, in three lines. -/
theorem C70_network {h : NetHost} (ho : h.Ordered) {es : List IfEntry} (he : h.ifaddrs = some es) (hne : ∃ name, IsInterface es name) :
    ∃ l : List (Bytes × Adapter), networkPart (getAdapterInfosNamed h) = l.flatMap (fun p => adapterPart p.1 p.2) ∧ l.Pairwise (fun p q => p.1 ≠ q.1)
      ∧ ∀ name a, (name, a) ∈ l ↔ IsInterface es name ∧ a = adapterOf es name := by
  obtain ⟨l, h1, h2, h3⟩ := C46_adapters ho he hne
  refine ⟨l, ?_, h2, h3⟩
  rw [h1]; rfl

/-- **C70**: without a network a number is printed: 1 if there is no interface, 2 if the system call fails. -/
theorem C70_no_network (h : NetHost) :
    ((∃ es, h.ifaddrs = some es ∧ ∀ name, ¬ IsInterface es name) →
      networkPart (getAdapterInfosNamed h) = [(.out, b!"problem in getting adapter informations:1")])
    ∧ (h.ifaddrs = none → networkPart (getAdapterInfosNamed h) = [(.out, b!"problem in getting adapter informations:2")]) := by
  constructor
  · intro hn
    have := (C46_none h).1.mpr hn
    generalize getAdapterInfosNamed h = r at this
    obtain ⟨r, l⟩ := r
    dsimp only at this
    subst this
    rfl
  · intro hn
    rw [(C46_none h).2.mpr hn]; rfl

/-! ## Licence files -/

theorem verdict_projects {cfg : Config} {r : Run} {fname : Bytes} {lines : List (Bytes × Bytes)}
    (h : verifyLicense cfg r fname = .ok lines) : ∃ p d rest, lines = (p, d) :: rest := by
  obtain ⟨_, d, rest, _, _, h3, _⟩ := verifyLicense_split h
  exact ⟨_, d, rest, h3⟩

theorem filePart_iff {cfg : Config} {file : Option Run} {fname : Bytes} {l : Printed} :
    filePart cfg file fname = .ok l ↔ FileReport cfg fname file l := by
  cases file with
  | none =>
    simp only [filePart, Outcome.ok.injEq]
    constructor
    · rintro rfl; exact .missing
    · intro h; cases h; rfl
  | some r =>
    simp only [filePart]
    have hdef : ∀ p d : Bytes, (some (defaultLine p d) = some (.out, b!"default project [" ++ p ++ b!"]: license OK") ∧ d = okText
        ∨ some (defaultLine p d) = some (.err, b!"default project [" ++ p ++ b!"]:" ++ d) ∧ d ≠ okText) := by
      intro p d
      unfold defaultLine okText
      by_cases h : d = b!"license OK"
      · rw [if_pos h]; left; subst h; simp
      · rw [if_neg h]; right; exact ⟨rfl, h⟩
    have hsec : ∀ p d : Bytes, (some (sectionLine p d) = some (.out, b!"project [" ++ p ++ b!"]: license OK") ∧ d = okText
        ∨ some (sectionLine p d) = some (.err, b!"project [" ++ p ++ b!"]" ++ d) ∧ d ≠ okText) := by
      intro p d
      unfold sectionLine okText
      by_cases h : d = b!"license OK"
      · rw [if_pos h]; left; subst h; simp
      · rw [if_neg h]; right; exact ⟨rfl, h⟩
    constructor
    · intro h
      obtain ⟨lines, h1, h2⟩ := Outcome.bind_eq_ok.mp h
      obtain ⟨p, d, rest, rfl⟩ := verdict_projects h1
      simp only [Outcome.pure_eq, Outcome.ok.injEq] at h2
      subst h2
      refine .verdicts h1 (by simp [verdictLines]) (by simpa [verdictLines] using hdef p d) ?_
      intro i q e hi
      simp only [verdictLines, List.getElem?_cons_succ, List.getElem?_map, hi, Option.map_some]
      exact hsec q e
    · intro h
      cases h with
      | @verdicts r p d rest l h1 h2 h3 h4 =>
        rw [h1]
        simp only [Outcome.ok_bind, Outcome.pure_eq, Outcome.ok.injEq, verdictLines]
        apply List.ext_getElem?
        intro i
        cases i with
        | zero =>
          simp only [List.getElem?_cons_zero]
          have := hdef p d
          grind
        | succ i =>
          simp only [List.getElem?_cons_succ, List.getElem?_map]
          cases hi : rest[i]? with
          | none =>
            have : rest.length ≤ i := List.getElem?_eq_none_iff.mp hi
            simp only [Option.map_none]
            exact (List.getElem?_eq_none_iff.mpr (by omega)).symm
          | some x =>
            obtain ⟨q, e⟩ := x
            simp only [Option.map_some]
            have := hsec q e
            have := h4 i q e hi
            grind

theorem fileParts_iff {cfg : Config} {files : Nat → Bytes → Option Run} : ∀ {n : Nat} {fs : List Bytes} {l : Printed},
    fileParts cfg files n fs = .ok l ↔ FileReports cfg files n fs l := by
  intro n fs
  induction fs generalizing n with
  | nil =>
    intro l
    simp only [fileParts, Outcome.ok.injEq]
    constructor
    · rintro rfl; exact .nil
    · intro h; cases h; rfl
  | cons f fs ih =>
    intro l
    simp only [fileParts]
    constructor
    · intro h
      obtain ⟨a, h1, h⟩ := Outcome.bind_eq_ok.mp h
      obtain ⟨b, h2, h⟩ := Outcome.bind_eq_ok.mp h
      simp only [Outcome.pure_eq, Outcome.ok.injEq] at h
      subst h
      exact .cons (filePart_iff.mp h1) (ih.mp h2)
    · intro h
      cases h with
      | cons h1 h2 => rw [filePart_iff.mpr h1, ih.mpr h2]; rfl

/-- **C70**: without the search in the environment exactly the file of the argument is reported on. -/
theorem C70_argument {cfg : Config} (he : cfg.withEnvVar = false) (arg value : Option Bytes) (files : Nat → Bytes → Option Run) (l : Printed) :
    licencePart cfg arg value files = .ok l ↔ FileReports cfg files 0 arg.toList l := by
  rw [← fileParts_iff]
  unfold licencePart envPart
  rw [if_neg (by simp [he])]
  constructor
  · intro h
    obtain ⟨a, h1, h⟩ := Outcome.bind_eq_ok.mp h
    simp only [Outcome.ok_bind, Outcome.pure_eq, Outcome.ok.injEq, List.append_nil] at h
    rw [h1, h]
  · intro h; rw [h]; simp

/-- **C70**: with it, every file named in the variable is reported on, too, in order; the names are separated by semicolons. -/
theorem C70_environment {cfg : Config} (he : cfg.withEnvVar = true) (arg : Option Bytes) {v : Bytes} (hv : v ≠ [])
    (files : Nat → Bytes → Option Run) (l : Printed) :
    licencePart cfg arg (some v) files = .ok l ↔ ∃ a b, FileReports cfg files 0 arg.toList a
      ∧ FileReports cfg files arg.toList.length (splitString v 59) b
      ∧ l = a ++ (.out, b!"environment variable [LICENSE_LOCATION] value [" ++ v ++ b!"]") :: b := by
  simp only [← fileParts_iff]
  cases v with
  | nil => exact absurd rfl hv
  | cons c v =>
    unfold licencePart envPart
    rw [if_pos he]
    dsimp only
    constructor
    · intro h
      obtain ⟨a, h1, h⟩ := Outcome.bind_eq_ok.mp h
      obtain ⟨x, h2, h⟩ := Outcome.bind_eq_ok.mp h
      obtain ⟨b, h3, h2⟩ := Outcome.bind_eq_ok.mp h2
      simp only [Outcome.pure_eq, Outcome.ok.injEq] at h h2
      subst h h2
      exact ⟨a, b, h1, h3, rfl⟩
    · rintro ⟨a, b, h1, h2, rfl⟩
      rw [h1, h2]; rfl

/-- **C70**: an unset or empty variable is reported. -/
theorem C70_environment_unset {cfg : Config} (he : cfg.withEnvVar = true) (arg : Option Bytes) {value : Option Bytes}
    (hv : value = none ∨ value = some []) (files : Nat → Bytes → Option Run) (l : Printed) :
    licencePart cfg arg value files = .ok l ↔ ∃ a, FileReports cfg files 0 arg.toList a
      ∧ l = a ++ [(.out, b!"environment variable [LICENSE_LOCATION] configured but not defined.")] := by
  simp only [← fileParts_iff]
  unfold licencePart envPart
  rw [if_pos he]
  rcases hv with rfl | rfl <;> dsimp only <;> constructor
  all_goals first
    | (intro h
       obtain ⟨a, h1, h⟩ := Outcome.bind_eq_ok.mp h
       simp only [Outcome.ok_bind, Outcome.pure_eq, Outcome.ok.injEq] at h
       exact ⟨a, h1, h.symm⟩)
    | (rintro ⟨a, h1, rfl⟩
       rw [h1]; rfl)

/-! ## The whole of it -/

/-- **C70**: on a Linux computer, with readable firmware texts and a path for the log file that fits, and with disks that can be
    enumerated, the tool prints: the identifiers of the four strategies and the environment (C64), the network, four lines about the
    processor - the model number in hexadecimal -, five about the firmware, and the reports on the licence files. -/
theorem C70_main {cfg : Config} {l : Linux} {c : Cpu} {mem : Bytes} (hmem : mem.length = 20) {e : Env}
    (he : mkEnv (l.host.WithCpu c) = .ok e) (hlog : l.logOverruns = false) (hd : getDiskInfos l.disks ≠ .ub)
    (arg : Option Bytes) (files : Nat → Bytes → Option Run) {lic : Printed}
    (hl : licencePart cfg arg (l.getenv (b!"LICENSE_LOCATION")) files = .ok lic) :
    ∃ ident model, identifyLines { l with host := l.host.WithCpu c }.os.machine (l.host.WithCpu c) mem = .ok ident
      ∧ ident.length = 7 ∧ Numeral 16 (Linux.cpuModel c).toNat model
      ∧ main cfg l c mem arg files = .ok (ident.map (fun p => (.out, p.1 ++ b!":" ++ p.2)) ++ networkPart (getAdapterInfosNamed l.net)
        ++ [(.out, b!"Cpu Vendor       :" ++ Linux.cpuVendor c), (.out, b!"Cpu Brand        :" ++ Linux.cpuBrand c),
            (.out, b!"Cpu hypervisor   :" ++ (if Linux.hypervisorSet c then b!"1" else b!"0")), (.out, b!"Cpu model        :0x" ++ model),
            (.out, b!"Bios vendor      :" ++ e.dmi.biosVendor), (.out, b!"Bios description :" ++ e.dmi.biosDescription),
            (.out, b!"System vendor    :" ++ e.dmi.sysVendor), (.out, b!"Cpu Vendor (dmi) :"), (.out, b!"Cpu Cores  (dmi) :0"),
            (.out, b!"==================")] ++ lic) := by
  obtain ⟨text, a, b, d, h1, _⟩ := C64_this_computer (m := { l with host := l.host.WithCpu c }.os.machine) (h := l.host.WithCpu c) (e := e)
    (mem := mem) rfl he (by
      simp only [Os.machine]
      split
      · rename_i h; exact absurd (h.2.symm.trans hlog) (by simp)
      · simp) hd hlog hmem
  refine ⟨_, number 16 (Linux.cpuModel c).toNat, h1, rfl, C70_number (by omega) (by omega) _, ?_⟩
  have hdmi : dmiInfo (l.host.WithCpu c) = .ok e.dmi := by
    obtain ⟨x, h2, h3⟩ := Outcome.bind_eq_ok.mp he
    simp only [Outcome.pure_eq, Outcome.ok.injEq] at h3
    rw [h2, ← h3]
  unfold main adapters
  dsimp only
  rw [h1, if_neg (by simp [hlog]), hdmi, hl]
  have hb : ∀ x : Bool, number 10 x.toNat = if x then b!"1" else b!"0" := by decide
  have h0 : number 10 0 = b!"0" := by decide
  simp only [Outcome.ok_bind, Outcome.pure_eq, cpuPart, dmiPart, hb, h0, List.append_assoc, List.append_nil, List.cons_append, List.nil_append]

/-- **C70**: also with a path for the log file that does not fit the tool prints the network and the rest once the identifiers are there, if
    the system lists the network interfaces. -/
theorem C70_main_long {cfg : Config} {l : Linux} {c : Cpu} {mem : Bytes} {e : Env} (he : mkEnv (l.host.WithCpu c) = .ok e)
    (hn : l.net.ifaddrs ≠ none) (arg : Option Bytes) (files : Nat → Bytes → Option Run) {lic : Printed}
    (hl : licencePart cfg arg (l.getenv (b!"LICENSE_LOCATION")) files = .ok lic) {ident : List (Bytes × Bytes)}
    (hi : identifyLines { l with host := l.host.WithCpu c }.os.machine (l.host.WithCpu c) mem = .ok ident) :
    ∃ rest, main cfg l c mem arg files
        = .ok (ident.map (fun p => (.out, p.1 ++ b!":" ++ p.2)) ++ networkPart (getAdapterInfosNamed l.net) ++ rest ++ lic) := by
  have hdmi : dmiInfo (l.host.WithCpu c) = .ok e.dmi := by
    obtain ⟨x, h2, h3⟩ := Outcome.bind_eq_ok.mp he
    simp only [Outcome.pure_eq, Outcome.ok.injEq] at h3
    rw [h2, ← h3]
  unfold main adapters
  dsimp only
  rw [hi, if_neg (by simp [hn]), hdmi, hl]
  refine ⟨cpuPart (Linux.cpuVendor c) (Linux.cpuBrand c) (Linux.hypervisorSet c) (Linux.cpuModel c) ++ dmiPart e.dmi [] 0
    ++ [(.out, b!"==================")], ?_⟩
  simp only [Outcome.ok_bind, Outcome.pure_eq, List.append_assoc]

/-- **C70**: if the network interfaces cannot be listed and the path for the log file does not fit, the tool never comes to an end in
    order. -/
theorem C70_main_overruns {cfg : Config} {l : Linux} {c : Cpu} {mem : Bytes} (hlog : l.logOverruns = true) (hn : l.net.ifaddrs = none)
    (arg : Option Bytes) (files : Nat → Bytes → Option Run) (x : Printed) : main cfg l c mem arg files ≠ .ok x := by
  intro h
  unfold main adapters at h
  dsimp only at h
  obtain ⟨ident, _, h⟩ := Outcome.bind_eq_ok.mp h
  rw [if_pos ⟨hn, hlog⟩] at h
  simp at h

/-! ### Concrete cases -/

example : adapterPart (b!"eth0") ⟨⟨0, 0x1b, 0x21, 7, 255, 16⟩, ⟨192, 168, 1, 20⟩⟩ = [(.out, b!"Network adapter [0]: eth0"),
    (.out, b!"   ip address [20-1-168-192]"), (.out, b!"   mac address [0:1b:21:7:ff:10]")] := by decide
example : number 16 0xf61 = b!"f61" ∧ number 10 255 = b!"255" := by decide

example : licencePart { sampleConfig with withEnvVar := true } none (some (b!"/a;/opt/app.lic"))
    (fun _ f => if f = b!"/opt/app.lic" then some (sampleRun sampleNow) else none)
    = .ok [(.out, b!"environment variable [LICENSE_LOCATION] value [/a;/opt/app.lic]"), (.err, b!"license file :/a not found."),
      (.err, b!"default project [TEST]:license signature didn't match with current license "), (.out, b!"project [TEST]: license OK")] := by
  decide +kernel

/-- With a TMPDIR of 300 bytes all four identifiers can be there, and the rest is printed. -/
def longLinux : Linux := { sampleLinux with getenv := fun v => if v = b!"TMPDIR" then some (List.replicate 300 65) else none }

def printedLines : Outcome Printed → Nat
  | .ok l => l.length
  | _ => 0

example : longLinux.logOverruns = true
    ∧ printedLines (main sampleConfig longLinux (fun _ => ⟨0, 0, 0, 0⟩) (List.replicate 20 0) none fun _ _ => none) = 23 := by
  decide +kernel

end Licensecc.Inspector
