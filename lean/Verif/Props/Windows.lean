import Verif.Spec.Windows
import Verif.Props.WinOs
import Verif.Props.WinSignature
import Verif.Props.Linux
/-!
# C67: licences on a Windows computer
-/
namespace Licensecc.Win
open Licensecc.Spec Licensecc.Win.Spec Licensecc.Spec.Der

/-! ## The name of the executable -/

theorem Windows.moduleName {l : Windows} {t : Bytes} (h : l.exe = some t) : l.world.moduleName = some (t.take 259) := by
  show getModuleName l.exe = _
  rw [h]
  rfl

/-- **C67** (what fails): an executable whose path, as far as it is read, has 256 bytes or more and a last component without a dot: the
    licence's path does not fit, every call is undefined behaviour. -/
theorem C67_long_executable_path {cfg : Config} {l : Windows} {caller : Option Caller} {hint : Option LicenseLocation}
    {out : Option LicInfo} {exe dir name f : Bytes} (hn : cfg.nearModule = true) (he : l.exe = some exe) (h0 : 0 ∉ exe)
    (hf : FeatureIs cfg caller f) (hlen : 256 ≤ exe.length) (hsplit : exe.take 259 = dir ++ name) (hd : DirPart dir)
    (hc : Component name) (hdot : NoDot name) : acquire cfg l.world caller hint out = .ub := by
  refine C50_long_module_path hn (Windows.moduleName he) hf ?_
  have hz : (0 : UInt8) ∉ exe.take 259 := fun h => h0 (List.mem_of_mem_take h)
  have hl : 256 ≤ (exe.take 259).length := by rw [List.length_take]; omega
  rw [hsplit, C38_keeps hd hc hdot, ← hsplit, List.takeWhile_append_of_pos]
  · simp only [List.length_append]
    have : ((b!".lic").takeWhile fun x => !decide (x = 0)).length = 4 := by decide
    simp only [decide_not] at this ⊢
    have hroom : pathRoom l.world.platform = 260 := rfl
    omega
  · intro c hc
    simp only [decide_not, Bool.not_eq_true', decide_eq_false_iff_not]
    rintro rfl
    exact hz hc

/-! ## The log file -/

theorem overrunsWin_iff (tempPath : Option Bytes) (s : Logger.State) : Logger.overrunsWin tempPath s = true ↔
    s.logFile = none ∧ ∀ d, tempPath = some d → 244 ≤ d.length := by
  obtain ⟨h1, h2, h3⟩ := Logger.C59_log_path_windows tempPath
  unfold Logger.overrunsWin
  simp only [Bool.and_eq_true, decide_eq_true_eq, and_congr_right_iff]
  intro _
  cases tempPath with
  | none => rw [h3 rfl]; simp
  | some d =>
    by_cases hd : 244 ≤ d.length
    · rw [h1 d rfl hd]; simp [hd]
    · rw [h2 d rfl (by omega)]; simp; omega

/-- **C67**: where there is no usable adapter, identify_pc with the ethernet strategy fails, as it should, exactly if the log file is open
    already or there is a directory for temporary files with a name of fewer than 244 bytes (C59); otherwise it overruns memory. -/
theorem C67_no_network (l : Windows) {as : List IpAdapter} (hs : l.net.Sorts) (hd : Delivers l.net as) (hp : Proper as)
    (hn : ∀ a ∈ as, ¬ Usable a) (mem : Bytes) (size : Nat) (hsz : 19 < size) :
    (l.log.logFile = none ∧ (∀ d, l.tempPath = some d → 244 ≤ d.length) → identifyPc l.os.machine 0 (some mem) size = .ub)
    ∧ (¬ (l.log.logFile = none ∧ ∀ d, l.tempPath = some d → 244 ≤ d.length) →
      identifyPc l.os.machine 0 (some mem) size = .ok ⟨false, size, some mem⟩) := by
  rw [← overrunsWin_iff]
  have hw : l.os.machine.warnUnknown 0 = .ok () := by
    unfold Machine.warnUnknown strategyUnknown
    simp
  have hsel : selectStrategy l.os.machine.strategyVar 0 = (0, false) := by simp [selectStrategy]
  have ha : l.os.machine.adapters = .ok (.notAvail, []) := by
    show l.net.getAdapterInfos = _
    unfold Net.getAdapterInfos
    rw [(C61_adapters hs hd hp).2 hn]
    rfl
  have hg : ∃ e, generateUserPcSignature l.os.machine 0 = .throw e := by
    unfold generateUserPcSignature
    rw [hw, hsel]
    simp [getStrategy, generatePcId, generateFirst, generateEthernetIds, alternativeIds, ha]
  obtain ⟨e, hg⟩ := hg
  constructor
  · intro h
    have hlog : l.os.machine.logOverruns = true := h
    unfold identifyPc
    simp [hsz, hg, Machine.logged, hlog]
  · intro h
    rw [Bool.not_eq_true] at h
    have hlog : l.os.machine.logOverruns = false := h
    unfold identifyPc
    simp [hsz, hg, Machine.logged, hlog]

/-- **C67**: the same for acquire_license where the name of the executable cannot be had. -/
theorem C67_no_executable {cfg : Config} {l : Windows} {caller : Option Caller} {hint : Option LicenseLocation} {out : Option LicInfo}
    {f : Bytes} (hn : cfg.nearModule = true) (he : l.exe = none) (hf : FeatureIs cfg caller f) (hlog : l.log.logFile = none)
    (ht : ∀ d, l.tempPath = some d → 244 ≤ d.length) : acquire cfg l.world caller hint out = .ub := by
  have hov : l.world.machine.logOverruns = true := (overrunsWin_iff _ _).mpr ⟨hlog, ht⟩
  have hm : l.world.moduleName = none := by
    show getModuleName l.exe = _
    rw [he]; rfl
  have hfo : featureOf cfg caller = .ok f := featureOf_iff.mpr hf
  have hr : readLicenses cfg l.world hint f = .ub := by
    unfold readLicenses activeStrategies
    simp only [hn, if_true, List.cons_append, List.nil_append, List.isEmpty_cons, Bool.false_eq_true, if_false]
    rw [readLocators, licenseLocations, hm]
    dsimp only
    unfold Machine.logged
    rw [if_pos hov]
    rfl
  unfold acquire
  rw [hfo]
  simp [hr]

/-! ## Hardware that is kept -/

theorem extends_net {l l' : Windows} (hr : Regular l.net) (hr' : Regular l'.net) (hk : NetworkKept l l') :
    Extends (netOnly l.os.machine) l'.os.machine := by
  obtain ⟨as, as', hd, hd', hk⟩ := hk
  refine ⟨fun as h => ?_, fun ds h => by simp [netOnly] at h⟩
  exact adapters_extend (o := l.os) (o' := l'.os) hr.sorts hr'.sorts hd hd' (hr.proper _ hd) (hr'.proper _ hd') hk h

theorem extends_disks {l l' : Windows} (hk : KeepsVolumes l.drives l'.drives) : Extends (disksOnly l.os.machine) l'.os.machine :=
  ⟨fun as h => by simp [disksOnly] at h, fun ds h => disks_extend (o := l.os) (o' := l'.os) hk h⟩

/-- An identifier of kept hardware. -/
theorem kept_identifier {l l' : Windows} (hr : Regular l.net) (hr' : Regular l'.net) {id : Bytes} (h0 : (0 : UInt8) ∉ id)
    (h : IdentifiedOn l l' id) : ∃ m n, generateUserPcSignature m n = .ok id ∧ Extends m l'.os.machine := by
  obtain ⟨strategy, mem, size, rest, n, used, hid, hmem, hs, hk⟩ := h
  have hg := generated_of_identify h0 hid hmem
  obtain ⟨⟨n', used', bytes, p1, p2, p3⟩, _⟩ := (C51_identifier _ _ _).mp hg
  have hn : n' = n := by
    have p1' := (strategyUsed_iff _ _ _ _).mp p1
    have hs' := (strategyUsed_iff _ _ _ _).mp hs
    have e : l.os.machine.strategyVar = l.getenv (b!"IDENTIFICATION_STRATEGY") := rfl
    rw [e, hs'] at p1'
    simp at p1'
    exact p1'.1.symm
  subst hn
  cases hk with
  | network h1 h2 =>
    refine ⟨netOnly l.os.machine, strategy, (C51_identifier _ _ _).mpr ⟨⟨_, _, _, p1, identifies_netOnly p2 ?_, p3⟩, fun _ => rfl⟩,
      extends_net hr hr' h2⟩
    rcases h1 with h1 | h1
    · exact .inl h1
    · exact .inr (.inl h1)
  | disk h2 =>
    exact ⟨disksOnly l.os.machine, strategy, (C51_identifier _ _ _).mpr ⟨⟨_, _, _, p1, identifies_disksOnly p2 (.inl rfl), p3⟩,
      fun _ => rfl⟩, extends_disks h2⟩
  | bareMetal h1 h2 h3 =>
    exact ⟨disksOnly l.os.machine, strategy, (C51_identifier _ _ _).mpr ⟨⟨_, _, _, p1,
      identifies_disksOnly p2 (.inr ⟨rfl, _, h1, h2⟩), p3⟩, fun _ => rfl⟩, extends_disks h3⟩
  | virtual h1 h2 h3 =>
    exact ⟨netOnly l.os.machine, strategy, (C51_identifier _ _ _).mpr ⟨⟨_, _, _, p1,
      identifies_netOnly p2 (.inr (.inr ⟨rfl, _, h1, h2⟩)), p3⟩, fun _ => rfl⟩, extends_net hr hr' h3⟩

/-! ## Licences -/

theorem confirms_iff {b : Bcrypt} {m e : Bytes} (hb : BuiltWith b m e) (data sig : Bytes) :
    b.verify data sig = .ok true ↔ Confirms b m e data sig := by
  rw [C60_accepts_iff hb.sized hb.modulus hb.exponent.1 hb.exponent.2 hb.key]
  constructor
  · rintro ⟨h1, h2, h3, h4, h5, h6, h7⟩; exact ⟨⟨h1, h2, h3, h4, h5⟩, h6, h7⟩
  · rintro ⟨⟨h1, h2, h3, h4, h5⟩, h6, h7⟩; exact ⟨h1, h2, h3, h4, h5, h6, h7⟩

/-- **C67**: the whole life of a licence locked to a Windows computer.  identify_pc ran on the computer at some time (`l`); a licence was
    issued for that identifier and signed; the file lies next to the executable.  Then, whenever later (`l'`) the identified
    hardware is still there and the dates are met, acquire_license returns LICENSE_OK, whatever else has changed. -/
theorem C67_licence_survives {cfg : Config} {l l' : Windows} {caller : Option Caller} (out : Option LicInfo)
    {exe f m e data sig text : Bytes} {limits : List (Bytes × Bytes)} (hr : Regular l.net) (hr' : Regular l'.net)
    (hnear : cfg.nearModule = true) (henv : cfg.withEnvVar = false)
    (hf : FeatureIs cfg caller f) (hmagic : magicOf caller = cfg.magic)
    (hfile : LicenceFile f limits data sig text) (hplace : NextToExecutable l' text exe)
    (hkey : BuiltWith l'.crypt m e) (hsig : Confirms l'.crypt m e data sig)
    (htime : InTime l' limits) (hid : ∀ id, (b!"client-signature", id) ∈ limits → IdentifiedOn l l' id) :
    ∃ res, acquire cfg l'.world caller none out = .ok res ∧ res.ret = .licenseOk := by
  have hmod : l'.world.moduleName = some exe := by
    rw [Windows.moduleName hplace.path, List.take_of_length_le (by have := hplace.short.1; omega)]
  refine C56_near_module out hnear henv hf hmagic hmod hplace.short.2 hplace.opens hplace.content hfile.size
    (limits := limits) ⟨hfile.plainFeature, hfile.plainLimits, hfile.distinct, sig, data, hfile.plainSignature, hfile.written, hfile.signedData, ?_⟩
    ⟨htime.begins, fun v hv => ?_, fun id hv => ?_⟩ ⟨fun h => by rw [hmod] at h; simp at h, fun v d hv hd k => ?_⟩
  · exact (confirms_iff hkey _ _).mpr hsig
  · obtain ⟨d, h1, h2⟩ := htime.ends v hv
    exact ⟨d, h1, fun k => (h2 k).1⟩
  · exact kept_identifier hr hr' (fun h => (((hfile.plainLimits _ hv).2).oneLine 0 h).2.2 rfl) (hid id hv)
  · obtain ⟨d', h1, h2⟩ := htime.ends v hv
    have e1 := seconds_of_notation hd l'.world.mktime
    rw [seconds_of_notation h1 l'.world.mktime] at e1
    simp only [Outcome.ok.injEq] at e1
    rw [← e1]
    exact (h2 k).2

/-! ## Hardware that identifiers describe -/

theorem shows_mac_nonzero {as : List IpAdapter} {d : Bytes} {x : Adapter} (h : Shows as d x) : x.mac ≠ ⟨0, 0, 0, 0, 0, 0⟩ := by
  obtain ⟨a, _, ⟨_, b, hb, hb0⟩, _, hmac, _⟩ := h
  intro h0
  unfold HasMac at hmac
  rw [h0] at hmac
  have hlen : (a.address.take (min 6 a.addressLength)).length ≤ 6 := by rw [List.length_take]; omega
  generalize a.address.take (min 6 a.addressLength) = w at hmac hb hlen
  rw [List.take_append, List.take_of_length_le hlen] at hmac
  have : b ∈ ([0, 0, 0, 0, 0, 0] : Bytes) := by
    rw [hmac]; simp [hb]
  simp at this
  exact hb0 this

theorem adapters_iff {l : Windows} (hr : Regular l.net) (x : Adapter) :
    (∃ as, l.os.machine.adapters = .ok (.ok, as) ∧ x ∈ as) ↔ ∃ as d, Delivers l.net as ∧ Shows as d x := by
  have hm : l.os.machine.adapters = (do let (r, l) ← l.net.getAdapterInfosNamed; .ok (r, l.map (·.2))) := rfl
  constructor
  · rintro ⟨as, h1, h2⟩
    rw [hm] at h1
    obtain ⟨⟨r, ns⟩, h3, h4⟩ := Outcome.bind_eq_ok.mp h1
    simp only [Outcome.ok.injEq, Prod.mk.injEq] at h4
    obtain ⟨rfl, rfl⟩ := h4
    obtain ⟨⟨d, y⟩, hy, rfl⟩ := List.mem_map.mp h2
    have hdel : ∃ lst, Delivers l.net lst := by
      unfold Net.getAdapterInfosNamed at h3
      split at h3
      · simp at h3
      · rename_i ha
        split at h3
        · rename_i lst hf; exact ⟨lst, .first (by simpa using ha) hf⟩
        · simp at h3
        · rename_i hf
          split at h3
          · simp at h3
          · rename_i ha2
            split at h3
            · rename_i lst hf2; exact ⟨lst, .second (by simpa using ha) hf (by simpa using ha2) hf2⟩
            · simp at h3
            · simp at h3
    obtain ⟨lst, hdel⟩ := hdel
    obtain ⟨c1, c2⟩ := C61_adapters hr.sorts hdel (hr.proper _ hdel)
    by_cases hu : ∃ a ∈ lst, Usable a
    · obtain ⟨r, r1, _, r3⟩ := c1 hu
      rw [h3] at r1
      simp only [Outcome.ok.injEq, Prod.mk.injEq, true_and] at r1
      subst r1
      exact ⟨lst, d, hdel, (r3 _ _).mp hy⟩
    · rw [c2 (fun a h1 h2 => hu ⟨a, h1, h2⟩)] at h3
      simp at h3
  · rintro ⟨lst, d, hdel, hsh⟩
    have hu : ∃ a ∈ lst, Usable a := by
      obtain ⟨a, a1, a2, _⟩ := hsh; exact ⟨a, a1, a2⟩
    obtain ⟨r, r1, _, r3⟩ := (C61_adapters hr.sorts hdel (hr.proper _ hdel)).1 hu
    exact ⟨r.map (·.2), by rw [hm, r1]; rfl, List.mem_map.mpr ⟨(d, x), (r3 _ _).mpr hsh, rfl⟩⟩

theorem labelIs_six (fs : Bytes) (h : HwId) : LabelIs fs h ↔
    ∃ c0, six fs = [c0, h.d2, h.d3, h.d4, h.d5, h.d6] ∧ c0.toNat % 32 = h.d1.toNat % 32 ∧ h.d7 = 0 := by
  rw [labelIs_iff]
  constructor
  · rintro ⟨_, _, rfl, rfl, c0, h1, h2, h3⟩; exact ⟨c0, h1, h2, h3⟩
  · rintro ⟨c0, h1, h2, h3⟩; exact ⟨_, _, rfl, rfl, c0, h1, h2, h3⟩

/-- **C67**: which identifiers a computer accepts: exactly those of its hardware. -/
theorem C67_identifies_iff {l : Windows} (hr : Regular l.net) (id : Bytes) :
    validatePcSignature l.os.machine id = .ok .licenseOk ↔ ∃ h, HwId.ofString id = .ok h ∧ Carries l h := by
  have hdisk : ∀ {h}, HwId.ofString id = .ok h → h.d1.toNat / 32 = 2 → (validatePcSignature l.os.machine id = .ok .licenseOk ↔
      ∃ serial fs, Volume l.drives serial fs ∧ (SerialIs ⟨serialByte serial 0, serialByte serial 1, serialByte serial 2,
        serialByte serial 3, 0, 0, 0, 0⟩ h ∨ LabelIs fs h)) := by
    intro h hid hs
    have hlow : ∀ n : UInt32, (serialByte n 0).toNat % 32 = n.toNat % 32 := by
      intro n; unfold serialByte; simp
    rw [C63_disk_accepted_iff l.os hid hs]
    refine exists_congr fun serial => exists_congr fun fs => and_congr Iff.rfl ?_
    rw [labelIs_six]
    refine or_congr ?_ Iff.rfl
    unfold SerialIs
    simp only [hlow, eq_comm (a := (0 : UInt8))]
  constructor
  · intro hv
    obtain ⟨h, hid, hm⟩ := (C27_validate_iff _ _).mp hv
    refine ⟨h, hid, ?_⟩
    rcases hm with ⟨h1, as, a, ha, hma, hmac, _⟩ | ⟨h1, h6, h7, as, a, ha, hma, hip, h0⟩ | ⟨h1, _⟩
    · obtain ⟨lst, d, g1, g2⟩ := (adapters_iff hr a).mp ⟨as, ha, hma⟩
      exact .mac h1 g1 g2 hmac
    · obtain ⟨lst, d, g1, g2⟩ := (adapters_iff hr a).mp ⟨as, ha, hma⟩
      exact .ip h1 g1 g2 hip h0 h6 h7
    · obtain ⟨serial, fs, g1, g2⟩ := (hdisk hid h1).mp hv
      exact .volume h1 g1 g2
  · rintro ⟨h, hid, hc⟩
    cases hc with
    | mac h1 g1 g2 hmac =>
      obtain ⟨as, ha, hma⟩ := (adapters_iff hr _).mpr ⟨_, _, g1, g2⟩
      exact (C27_validate_iff _ _).mpr ⟨h, hid, .inl ⟨h1, as, _, ha, hma, hmac, shows_mac_nonzero g2⟩⟩
    | ip h1 g1 g2 hip h0 h6 h7 =>
      obtain ⟨as, ha, hma⟩ := (adapters_iff hr _).mpr ⟨_, _, g1, g2⟩
      exact (C27_validate_iff _ _).mpr ⟨h, hid, .inr (.inl ⟨h1, h6, h7, as, _, ha, hma, hip, h0⟩)⟩
    | volume h1 g1 g2 => exact (hdisk hid h1).mpr ⟨_, _, g1, g2⟩

/-- **C67**, the other direction: LICENSE_OK on a Windows computer means that a text was found whose section for the feature has a
    signature that BCrypt confirms for its contents with the built-in key, within its dates, and locked, if at all, to hardware of
    this computer. -/
theorem C67_sound {cfg : Config} {l : Windows} (hr : Regular l.net) {m e : Bytes} (hkey : BuiltWith l.crypt m e)
    {caller : Option Caller} {hint : Option LicenseLocation}
    {out : Option LicInfo} {res : AcquireResult} (h : acquire cfg l.world caller hint out = .ok res) (hok : res.ret = .licenseOk) :
    ∃ f src text k, FeatureIs cfg caller f ∧ Offers cfg l.world hint src text ∧ magicOf caller = cfg.magic
      ∧ (∃ s data, lastValue (b!"sig") (entriesFor f text) = some s ∧ SigningData f (entriesFor f text) data
        ∧ Confirms l.crypt m e data s)
      ∧ NotExpired l.world f text (l.clock k) ∧ Started l.world f text (l.clock k)
      ∧ ∀ id, IsLimit (entriesFor f text) (b!"client-signature") id → ∃ x, HwId.ofString id = .ok x ∧ Carries l x := by
  obtain ⟨f, src, text, k, h1, h2, _, h3⟩ := C01_license_ok_sound h hok
  refine ⟨f, src, text, k, h1, h2, h3.magic, ?_, h3.notExpired, h3.started, fun id hid => ?_⟩
  · obtain ⟨s, data, g1, g2, g3⟩ := h3.signed
    exact ⟨s, data, g1, g2, (confirms_iff hkey _ _).mp g3⟩
  · exact (C67_identifies_iff hr id).mp ((C27_validate_iff _ _).mpr (h3.machine id hid))

/-- **C67**: a licence locked to a computer, copied next to the executable on another one that does not have that hardware, is
    refused. -/
theorem C67_copied_licence_refused {cfg : Config} {l : Windows} (hr : Regular l.net) {m e : Bytes} (hkey : BuiltWith l.crypt m e)
    {caller : Option Caller} {out : Option LicInfo}
    {exe f data sig text id : Bytes} {limits : List (Bytes × Bytes)} (henv : cfg.withEnvVar = false)
    (hf : FeatureIs cfg caller f) (hfile : LicenceFile f limits data sig text) (hplace : NextToExecutable l text exe)
    (hid : (b!"client-signature", id) ∈ limits) (hno : ∀ x, HwId.ofString id = .ok x → ¬ Carries l x)
    {res : AcquireResult} (h : acquire cfg l.world caller none out = .ok res) : res.ret ≠ .licenseOk := by
  intro hok
  obtain ⟨f', src, text', k, h1, h2, _, _, _, _, h3⟩ := C67_sound hr hkey h hok
  have := featureIs_unique h1 hf
  subst this
  have hmod : l.world.moduleName = some exe := by
    rw [Windows.moduleName hplace.path, List.take_of_length_le (by have := hplace.short.1; omega)]
  have ht : text' = text := by
    cases h2 with
    | nearModule g1 g2 g3 g4 =>
      rw [hmod] at g2
      simp only [Option.some.injEq] at g2
      subst g2
      have := hplace.content
      change l.read _ = _ at g4
      rw [this] at g4
      simp only [Option.some.injEq] at g4
      subst g4
      exact List.take_of_length_le hfile.size
    | envLocation g1 => rw [henv] at g1; simp at g1
    | envData g1 => rw [henv] at g1; simp at g1
    | envDataEncoded g1 => rw [henv] at g1; simp at g1
    | hintPath g1 => simp at g1
    | hintPathOddName g1 => simp at g1
    | hintPlain g1 => simp at g1
    | hintEncoded g1 => simp at g1
  subst ht
  let w : World := { l.world with verify := fun _ _ => .ok true }
  have hi : Issued w f' limits text' :=
    ⟨hfile.plainFeature, hfile.plainLimits, hfile.distinct, sig, data, hfile.plainSignature, hfile.written, hfile.signedData, rfl⟩
  obtain ⟨x, g1, g2⟩ := h3 id ((issued_limit hi (by decide) (by decide)).mpr hid)
  exact hno x g1 g2

/-- **C67** (the property "a locked licence works on that computer only" fails): a licence locked to the file system name
    NTFS works on every Windows computer with an NTFS volume. -/
theorem C67_ntfs_licence {cfg : Config} {l : Windows} {caller : Option Caller} (out : Option LicInfo) {serial : UInt32}
    {exe f m e data sig text : Bytes}
    (hnear : cfg.nearModule = true) (henv : cfg.withEnvVar = false)
    (hf : FeatureIs cfg caller f) (hmagic : magicOf caller = cfg.magic)
    (hfile : LicenceFile f [(b!"client-signature", b!"AE5U-RlMA-AAA=")] data sig text) (hplace : NextToExecutable l text exe)
    (hkey : BuiltWith l.crypt m e) (hsig : Confirms l.crypt m e data sig) (hv : Volume l.drives serial (b!"NTFS")) :
    ∃ res, acquire cfg l.world caller none out = .ok res ∧ res.ret = .licenseOk := by
  have hmod : l.world.moduleName = some exe := by
    rw [Windows.moduleName hplace.path, List.take_of_length_le (by have := hplace.short.1; omega)]
  let lim : List (Bytes × Bytes) := [(b!"client-signature", b!"AE5U-RlMA-AAA=")]
  have hlim : ∀ {k v : Bytes}, (k, v) ∈ lim → k = b!"client-signature" ∧ v = b!"AE5U-RlMA-AAA=" := by
    intro k v h; simpa [lim] using h
  refine C56_near_module out hnear henv hf hmagic hmod hplace.short.2 hplace.opens hplace.content hfile.size
    (limits := lim) ⟨hfile.plainFeature, hfile.plainLimits, hfile.distinct, sig, data, hfile.plainSignature, hfile.written, hfile.signedData, ?_⟩
    ⟨fun v hv => ?_, fun v hv => ?_, fun id hid => ?_⟩ ⟨fun h => by rw [hmod] at h; simp at h, fun v d hv hd k => ?_⟩
  · exact (confirms_iff hkey _ _).mpr hsig
  · exact absurd (hlim hv).1 (by decide)
  · exact absurd (hlim hv).1 (by decide)
  · obtain ⟨_, rfl⟩ := hlim hid
    refine ⟨⟨.ok (.notAvail, []), .ok (.ok, [⟨0, [], ⟨0, 0, 0, 0, 0, 0, 0, 0⟩, false, b!"NTFS", true, false⟩]), .ok ⟨.none, false, false⟩,
      none, false⟩, 2, by decide +kernel, fun as h => by simp at h, fun ds h => ?_⟩
    simp only [Outcome.ok.injEq, Prod.mk.injEq, true_and] at h
    subst h
    obtain ⟨x, hx, x1, x2, x3, x4⟩ := (disk_iff l.drives serial (b!"NTFS")).mp ⟨_, hv, by decide⟩
    refine ⟨_, (machine_disks l.os _).mpr ⟨rfl, fun h0 => by
      rw [show disksOfDrives 0 (l.drives.take 40) = [] from h0] at hx; simp at hx⟩, fun d hd => ?_⟩
    simp only [List.mem_singleton] at hd
    subst hd
    exact ⟨fun h => by simp at h, fun _ => ⟨x, hx, x4, x3⟩⟩
  · exact absurd (hlim hv).1 (by decide)

/-! ## Example -/

/-- Locked to drive C: of `sampleWindows`. -/
def boundLimits : List (Bytes × Bytes) := [(b!"valid-to", b!"20300101"), (b!"client-signature", b!"AFPC-saAA-AAA=")]

def boundText : Bytes := issuedText (b!"test") boundLimits (b!"QUJD")

def boundData : Bytes := b!"TESTclient-signatureAFPC-saAA-AAA=lic_ver200valid-to20300101"

def sampleWindows : Windows where
  net := sampleNetWin
  drives := sampleWin.drives
  host := sampleWin.host
  crypt := { sampleBcrypt with hash := fun d => if d = boundData then some (b!"ABC") else some [] }
  getenv := fun _ => none
  exe := some b!"C:\\app\\tool.exe"
  tempPath := some b!"C:\\Temp\\"
  clock := fun _ => sampleNow
  mktime := fun y m d => 86400 * (372 * y + 31 * m + d)
  probe := fun p => p = b!"C:\\app\\tool.lic"
  read := fun p => if p = b!"C:\\app\\tool.lic" then some boundText else none
  log := ⟨none, fun _ => []⟩
  junk := ⟨.info, .licenseOk, [], []⟩

/-- The same computer with a new drive, C: listed first, other network and no directory for temporary files, as a virtual machine. -/
def sampleWindows' : Windows :=
  { sampleWindows with
    net := { sampleNetWin with first := .other }
    drives := [⟨b!"C:\\", true, some (b!"Renamed", 0xA0B1C2D3, b!"NTFS")⟩, ⟨b!"E:\\", true, some (b!"", 7, b!"FAT32")⟩,
      ⟨b!"D:\\", true, some (b!"Data", 0x12345678, b!"NTFS")⟩]
    host := sampleWinVm.host
    tempPath := none }

theorem sample_file : LicenceFile (b!"test") boundLimits boundData (b!"QUJD") boundText := by
  have plain : ∀ {s : Bytes}, (∀ c ∈ s, c ≠ 10 ∧ c ≠ 13 ∧ c ≠ 0) → (∀ c ∈ s.head?, c ∉ ([32, 9, 10, 11, 12, 13] : Bytes)) →
      (∀ c ∈ s.getLast?, c ∉ ([32, 9, 10, 11, 12, 13] : Bytes)) → PlainText s :=
    fun h1 h2 h3 => ⟨h1, fun c hc => h2 c hc, fun c hc => h3 c hc⟩
  refine ⟨⟨plain (by decide) (by decide) (by decide), by decide⟩, ?_, ?_, plain (by decide) (by decide) (by decide), rfl, ?_, by decide +kernel⟩
  · intro e he
    simp only [boundLimits, List.mem_cons, List.not_mem_nil, or_false] at he
    rcases he with rfl | rfl
    · exact ⟨⟨plain (by decide) (by decide) (by decide), by decide, ⟨118, _, rfl, by decide⟩⟩, plain (by decide) (by decide) (by decide)⟩
    · exact ⟨⟨plain (by decide) (by decide) (by decide), by decide, ⟨99, _, rfl, by decide⟩⟩, plain (by decide) (by decide) (by decide)⟩
  · have : (b!"lic_ver" :: b!"sig" :: boundLimits.map (·.1)).Pairwise (fun a b => Ini.sameName a b = false) := by decide +kernel
    refine this.imp ?_
    intro a b h hs
    rw [← Ini.sameName_iff, h] at hs
    simp at hs
  · exact ⟨[(b!"client-signature", b!"AFPC-saAA-AAA="), (b!"lic_ver", b!"200"), (b!"valid-to", b!"20300101")], by decide, by decide, rfl⟩

theorem sample_regular : Regular sampleWindows.net := by
  refine ⟨sortByScore_spec, fun l h => ?_⟩
  cases h with
  | second h1 h2 => cases h2
  | first h1 h2 =>
    simp only [sampleWindows, sampleNetWin, Answer.noError.injEq] at h2
    subst h2
    intro a ha
    simp only [List.mem_cons, List.not_mem_nil, or_false] at ha
    rcases ha with rfl | rfl | rfl | rfl
    · exact ⟨⟨10, 8, 0, 6⟩, by decide⟩
    · exact ⟨⟨192, 168, 0, 25⟩, by decide⟩
    · exact ⟨⟨0, 0, 0, 0⟩, by decide⟩
    · exact ⟨⟨0, 0, 0, 0⟩, by decide⟩

theorem sample_regular' : Regular sampleWindows'.net := by
  refine ⟨sortByScore_spec, fun l h => ?_⟩
  cases h with
  | first h1 h2 => cases h2
  | second h1 h2 => cases h2

theorem sample_built : BuiltWith sampleWindows'.crypt sampleModulus [1, 0, 1] :=
  ⟨⟨by decide +kernel, by decide +kernel⟩, ⟨by decide +kernel, by decide +kernel⟩, ⟨by unfold Minimal; decide, rfl⟩, rfl⟩

theorem sample_confirms : Confirms sampleWindows'.crypt sampleModulus [1, 0, 1] boundData (b!"QUJD") :=
  ⟨⟨rfl, rfl, rfl, rfl, rfl⟩, by decide +kernel, b!"ABC", b!"ABC", by decide +kernel, by decide +kernel, by decide, by decide +kernel⟩

theorem sample_keeps : KeepsVolumes sampleWindows.drives sampleWindows'.drives := by
  rintro serial fs ⟨d, hd, hf, name, hv⟩
  have : ∀ d ∈ sampleWindows.drives.take 40, d.fixed = true → ∀ v, d.volume = some v → ∃ e ∈ sampleWindows'.drives.take 40,
      e.fixed = true ∧ ∃ n, e.volume = some (n, v.2.1, v.2.2) := by
    intro d hd hf v hv
    have hd' : d ∈ sampleWin.drives := by simpa [sampleWindows, sampleWin] using hd
    simp only [sampleWin, List.mem_cons, List.not_mem_nil, or_false] at hd'
    rcases hd' with rfl | rfl | rfl
    · simp at hf
    · simp at hv; subst hv
      exact ⟨⟨b!"D:\\", true, some (b!"Data", 0x12345678, b!"NTFS")⟩, by decide, rfl, b!"Data", rfl⟩
    · simp at hv; subst hv
      exact ⟨⟨b!"C:\\", true, some (b!"Renamed", 0xA0B1C2D3, b!"NTFS")⟩, by decide, rfl, b!"Renamed", rfl⟩
  exact this d hd hf _ hv

theorem sample_identified : IdentifiedOn sampleWindows sampleWindows' (b!"AFPC-saAA-AAA=") :=
  ⟨-1, List.replicate 20 0, 20, List.replicate 5 0, -1, false, by decide +kernel, by decide, .unset rfl (by simp [sampleWindows]),
    .bareMetal (e := ⟨.none, false, false⟩) (by decide +kernel) rfl sample_keeps⟩

/-- The hypotheses of C67 are met by these two. -/
example : ∃ res, acquire sampleConfig sampleWindows'.world (some sampleCaller) none none = .ok res ∧ res.ret = .licenseOk := by
  refine C67_licence_survives (l := sampleWindows) none sample_regular sample_regular' rfl rfl (f := b!"test")
    (.named ⟨by decide, .inl ⟨List.replicate 11 0, by decide, by decide⟩⟩ (by decide)) rfl sample_file
    (exe := b!"C:\\app\\tool.exe") ⟨rfl, by decide +kernel, by decide +kernel, by decide +kernel⟩
    sample_built sample_confirms ⟨?_, ?_⟩ ?_
  · intro v hv; simp [boundLimits] at hv
  · intro v hv
    have : v = b!"20300101" := by simpa [boundLimits] using hv
    subst this
    exact ⟨⟨2, 0, 3, 0, 0, 1, 0, 1⟩, .inl (by decide), fun k => by
      change sampleNow ≤ (_ : Int) ∧ (_ : Int) - sampleNow < _; decide⟩
  · intro id hid
    have : id = b!"AFPC-saAA-AAA=" := by simpa [boundLimits] using hid
    subst this
    exact sample_identified

/-- Copied to a computer with other drives it is refused. -/
example : retOf (acquire sampleConfig { sampleWindows with drives := sampleWin'.drives }.world (some sampleCaller) none none)
    = some .identifiersMismatch := by decide +kernel

/-- A path of 256 bytes meets the hypotheses of `C67_long_executable_path`. -/
example : acquire sampleConfig { sampleWindows with exe := some (92 :: List.replicate 255 97) }.world (some sampleCaller) none none = .ub := by
  refine C67_long_executable_path (dir := [92]) (name := List.replicate 255 97) (f := b!"test") rfl rfl (by decide +kernel)
    (.named ⟨by decide, .inl ⟨List.replicate 11 0, by decide, by decide⟩⟩ (by decide)) (by decide +kernel) (by decide +kernel)
    (.inr ⟨[], 92, rfl, .inr rfl⟩) ?_ (by unfold NoDot; decide +kernel)
  intro c hc
  rw [(List.mem_replicate.mp hc).2]
  unfold IsSep; decide

/-- Both cases of `C67_no_network`, and `C67_no_executable`. -/
def sampleNoNet : Windows := { sampleWindows' with net := { sampleNetWin with first := .noError [] } }

example : identifyPc sampleNoNet.os.machine 0 (some (List.replicate 20 1)) 20 = .ub :=
  (C67_no_network sampleNoNet (as := []) sortByScore_spec (.first rfl rfl) (by simp [Proper]) (by simp) _ _ (by decide)).1
    ⟨rfl, by intro d h; cases h⟩

example : identifyPc { sampleNoNet with tempPath := some (b!"C:\\") }.os.machine 0 (some (List.replicate 20 1)) 20
    = .ok ⟨false, 20, some (List.replicate 20 1)⟩ :=
  (C67_no_network { sampleNoNet with tempPath := some (b!"C:\\") } (as := []) sortByScore_spec (.first rfl rfl) (by simp [Proper])
    (by simp) _ _ (by decide)).2 (by rintro ⟨_, h⟩; have := h _ rfl; revert this; decide)

example : acquire sampleConfig { sampleWindows' with exe := none }.world (some sampleCaller) none none = .ub :=
  C67_no_executable (f := b!"test") rfl rfl
    (.named ⟨by decide, .inl ⟨List.replicate 11 0, by decide, by decide⟩⟩ (by decide)) rfl (by intro d h; cases h)

/-- A licence as `C67_ntfs_licence` describes it works on `sampleWin'`, which the one above does not. -/
example : retOf (acquire sampleConfig { sampleWindows with
      drives := sampleWin'.drives
      crypt := { sampleBcrypt with hash := fun d => some (if d = b!"TESTclient-signatureAE5U-RlMA-AAA=lic_ver200" then b!"ABC" else []) }
      read := fun p => if p = b!"C:\\app\\tool.lic" then
        some (issuedText (b!"test") [(b!"client-signature", b!"AE5U-RlMA-AAA=")] (b!"QUJD")) else none
      }.world (some sampleCaller) none none)
    = some .licenseOk := by decide +kernel

end Licensecc.Win
