import Verif.Spec.Linux
import Verif.Props.Os
import Verif.Props.OpenSsl
import Verif.Props.Issued
import Verif.Props.Locate
import Verif.Props.Exceptions
/-!
# C66: licences on a Linux computer
-/
namespace Licensecc
open Spec

/-! ## The name of the executable -/

/-- **C66**: the path of the executable is found and stored safely; of a path of 1024 bytes or more the first 1023 are taken. -/
theorem C66_module_name (link : Option Bytes) (hl : ∀ t, link = some t → 0 ∉ t) (buffer : Bytes) (hb : buffer.length = 1024) :
    getModuleName link buffer = .ok (link.map fun t => t.take 1023) := by
  cases link with
  | none => rfl
  | some t =>
    have h0 : (0 : UInt8) ∉ t.take 1023 := fun h => hl t rfl (List.mem_of_mem_take h)
    have hlen : (t.take 1023).length ≤ 1023 := by rw [List.length_take]; omega
    unfold getModuleName pathArray
    dsimp only [Option.map_some]
    generalize t.take (1024 - 1) = got at *
    rw [if_neg (by omega)]
    obtain ⟨k, hk⟩ : ∃ k, 1024 - got.length = k + 1 := ⟨1024 - got.length - 1, by omega⟩
    rw [hk, List.replicate_succ, C37_mstrlcpy buffer got _ (got.length + 1) h0 (by omega) (by omega)]
    have : (got ++ 0 :: buffer.drop (got.length + 1)).takeWhile (· ≠ 0) = got := by
      rw [List.takeWhile_append_of_pos (by intro a ha; simp; rintro rfl; exact h0 ha)]
      simp
    simp at this ⊢
    exact this

theorem Linux.moduleName {l : Linux} {t : Bytes} (h : l.exe = some t) (h0 : 0 ∉ t) : l.world.moduleName = some (t.take 1023) := by
  have := C66_module_name l.exe (fun t' h' => by rw [h] at h'; cases h'; exact h0) moduleArray
    (by unfold moduleArray pathArray; rw [List.length_replicate])
  unfold Linux.world
  dsimp only
  rw [this, h]
  rfl

/-- **C66** (what fails): an executable whose path, as far as it is read, has 1020 bytes or more and a last component without a dot: the
    licence's path does not fit, every call is undefined behaviour. -/
theorem C66_long_executable_path {cfg : Config} {l : Linux} {caller : Option Caller} {hint : Option LicenseLocation}
    {out : Option LicInfo} {exe dir name f : Bytes} (hn : cfg.nearModule = true) (he : l.exe = some exe) (h0 : 0 ∉ exe)
    (hf : FeatureIs cfg caller f) (hlen : 1020 ≤ exe.length) (hsplit : exe.take 1023 = dir ++ name) (hd : DirPart dir)
    (hc : Component name) (hdot : NoDot name) : acquire cfg l.world caller hint out = .ub := by
  refine C50_long_module_path hn (Linux.moduleName he h0) hf ?_
  have hz : (0 : UInt8) ∉ exe.take 1023 := fun h => h0 (List.mem_of_mem_take h)
  have hl : 1020 ≤ (exe.take 1023).length := by rw [List.length_take]; omega
  rw [hsplit, C38_keeps hd hc hdot, ← hsplit, List.takeWhile_append_of_pos]
  · simp only [List.length_append]
    have : ((b!".lic").takeWhile fun x => !decide (x = 0)).length = 4 := by decide
    simp only [decide_not] at this ⊢
    have hroom : pathRoom l.world.platform = 1024 := rfl
    omega
  · intro c hc
    simp only [decide_not, Bool.not_eq_true', decide_eq_false_iff_not]
    rintro rfl
    exact hz hc

/-! ## The log file -/

/-- **C66**: where the network interfaces cannot be listed, identify_pc with the ethernet strategy fails, as it should, exactly if the log
    file is open already or TMPDIR has fewer than 238 bytes (C59); otherwise it overruns memory. -/
theorem C66_no_network (l : Linux) (hn : l.net.ifaddrs = none) (mem : Bytes) (size : Nat) (hs : 19 < size) :
    (l.log.logFile = none ∧ (∃ d, l.getenv (b!"TMPDIR") = some d ∧ 238 ≤ d.length) → identifyPc l.os.machine 0 (some mem) size = .ub)
    ∧ (¬ (l.log.logFile = none ∧ ∃ d, l.getenv (b!"TMPDIR") = some d ∧ 238 ≤ d.length) →
      identifyPc l.os.machine 0 (some mem) size = .ok ⟨false, size, some mem⟩) := by
  rw [← Logger.overruns_iff]
  have hl : l.logOverruns = Logger.overruns (l.getenv (b!"TMPDIR")) l.log := rfl
  have hw : l.os.machine.warnUnknown 0 = .ok () := by
    unfold Machine.warnUnknown strategyUnknown
    simp
  have hsel : selectStrategy l.os.machine.strategyVar 0 = (0, false) := by simp [selectStrategy]
  constructor
  · intro h
    rw [← hl] at h
    have ha : l.os.machine.adapters = .ub := if_pos ⟨hn, h⟩
    have hg : generateUserPcSignature l.os.machine 0 = .ub := by
      unfold generateUserPcSignature
      rw [hw, hsel]
      simp [getStrategy, generatePcId, generateFirst, generateEthernetIds, alternativeIds, ha]
    unfold identifyPc
    simp [hs, hg]
  · intro h
    rw [← hl, Bool.not_eq_true] at h
    have ha : l.os.machine.adapters = .ok (getAdapterInfos l.net) := if_neg (fun hc => by
      have : l.logOverruns = true := hc.2
      rw [h] at this; simp at this)
    have hlog : l.os.machine.logOverruns = false := h
    have hg : ∃ e, generateUserPcSignature l.os.machine 0 = .throw e := by
      unfold generateUserPcSignature
      rw [hw, hsel]
      simp [getStrategy, generatePcId, generateFirst, generateEthernetIds, alternativeIds, ha, getAdapterInfos, getAdapterInfosNamed, hn]
    obtain ⟨e, hg⟩ := hg
    unfold identifyPc
    simp [hs, hg, Machine.logged, hlog]

/-- **C66**: the same for acquire_license where /proc/PID/exe cannot be read. -/
theorem C66_no_executable {cfg : Config} {l : Linux} {caller : Option Caller} {hint : Option LicenseLocation} {out : Option LicInfo}
    {f d : Bytes} (hn : cfg.nearModule = true) (he : l.exe = none) (hf : FeatureIs cfg caller f) (hlog : l.log.logFile = none)
    (ht : l.getenv (b!"TMPDIR") = some d) (hlen : 238 ≤ d.length) : acquire cfg l.world caller hint out = .ub := by
  have hov : l.world.machine.logOverruns = true := (Logger.overruns_iff _ _).mpr ⟨hlog, d, ht, hlen⟩
  have hm : l.world.moduleName = none := by
    unfold Linux.world getModuleName
    rw [he]
  have hfo : featureOf cfg caller = .ok f := featureOf_iff.mpr hf
  have hr : readLicenses cfg l.world hint f = .ub := by
    unfold readLicenses activeStrategies
    simp only [hn, if_true, List.cons_append, List.nil_append, List.isEmpty_cons, Bool.false_eq_true, if_false]
    rw [readLocators, licenseLocations, hm]
    dsimp only
    unfold Machine.logged
    rw [if_pos hov]
    rfl
  unfold acquire
  rw [hfo]
  simp [hr]

/-! ## Disks -/

theorem setPreferred_ok {h : DiskHost} {ds : List Disk} {m : UuidMap} (hu : setPreferredDisks h ds m ≠ .ub) :
    ∃ ds', setPreferredDisks h ds m = .ok ds' := by
  cases hs : setPreferredDisks h ds m with
  | ok x => exact ⟨x, rfl⟩
  | ub => exact absurd hs hu
  | throw e =>
    exfalso
    unfold setPreferredDisks at hs
    have hone : ∀ e' ds e, markEntry m e' ds ≠ .throw e := by
      intro e' ds e
      unfold markEntry
      split
      · split <;> simp
      · split
        · exact markLabel_no_throw _ _ _
        · simp
    have hno : ∀ es ds e, markEntries m es ds ≠ .throw e := by
      intro es
      induction es with
      | nil => intro ds e; simp [markEntries]
      | cons a es ih =>
        intro ds e h
        simp only [markEntries] at h
        rcases Outcome.bind_eq_throw.mp h with h | ⟨x, _, h⟩
        · exact hone _ _ _ h
        · exact ih _ _ h
    split at hs
    · exact hno _ _ _ hs
    · simp at hs

theorem labelled_safe {h : DiskHost} {ds : List Disk} (m : UuidMap)
    (hl : ∀ tab t, h.fstab = some tab → (b!"LABEL=" ++ t) ∈ tab → ∀ d ∈ ds, d.labelInit = true) :
    ∃ ds', setPreferredDisks h ds m = .ok ds' := by
  refine setPreferred_ok fun hu => ?_
  obtain ⟨es, t, h1, h2, i, d, h3, h4, _⟩ := (C44_undefined_iff h ds m).mp hu
  rw [hl es t h1 h2 d (List.mem_of_getElem? h3)] at h4
  simp at h4

/-- Marking the preferred disks changes nothing else. -/
theorem preferred_mem {h : DiskHost} {ds ds' : List Disk} {m : UuidMap} (hok : setPreferredDisks h ds m = .ok ds') :
    (∀ d ∈ ds, ∃ b, { d with preferred := b } ∈ ds') ∧ (∀ d' ∈ ds', ∃ d ∈ ds, ∃ b, d' = { d with preferred := b }) := by
  obtain ⟨h1, h2⟩ := C44_preferred_iff hok
  constructor
  · intro d hd
    obtain ⟨i, hi, rfl⟩ := List.mem_iff_getElem.mp hd
    obtain ⟨b, hb, _⟩ := h2 i _ (List.getElem?_eq_getElem hi)
    exact ⟨b, List.mem_of_getElem? hb⟩
  · intro d' hd'
    obtain ⟨i, hi, rfl⟩ := List.mem_iff_getElem.mp hd'
    obtain ⟨b, hb, _⟩ := h2 i _ (List.getElem?_eq_getElem (by omega))
    rw [List.getElem?_eq_getElem hi] at hb
    exact ⟨ds[i]'(by omega), List.getElem_mem _, b, by simpa using hb⟩

theorem blkidLoop_labelled : ∀ (s win : Bytes) (pos n : Nat) (ds ds' : List Disk) (m m' : UuidMap),
    blkidLoop win pos n ds m s = .ok (ds', m') → (∀ d ∈ ds, d.labelInit = true ∧ d.snInit = true) →
    ∀ d ∈ ds', d.labelInit = true ∧ d.snInit = true := by
  intro s
  induction s with
  | nil => intro win pos n ds ds' m m' h hl; simp [blkidLoop] at h; rw [← h.1]; exact hl
  | cons c s ih =>
    intro win pos n ds ds' m m' h hl
    unfold blkidLoop at h
    split at h
    · obtain ⟨⟨d, uuid⟩, h1, h2⟩ := Outcome.bind_eq_ok.mp h
      refine ih _ _ _ _ _ _ _ h2 ?_
      intro x hx
      rcases List.mem_append.mp hx with hx | hx
      · exact hl x hx
      · simp only [List.mem_singleton] at hx
        subst hx
        unfold blkidDevice at h1
        obtain ⟨_, _, h1⟩ := Outcome.bind_eq_ok.mp h1
        obtain ⟨_, _, h1⟩ := Outcome.bind_eq_ok.mp h1
        obtain ⟨_, _, h1⟩ := Outcome.bind_eq_ok.mp h1
        obtain ⟨_, _, h1⟩ := Outcome.bind_eq_ok.mp h1
        simp at h1
        rw [← h1.1]; simp
    · exact ih _ _ _ _ _ _ _ h hl

theorem parseBlkid_labelled {c : Bytes} {r : FuncRet} {ds : List Disk} {m : UuidMap} (h : parseBlkid c [] [] = .ok (r, ds, m)) :
    r = .ok ∧ ∀ d ∈ ds, d.labelInit = true ∧ d.snInit = true := by
  unfold parseBlkid at h
  obtain ⟨⟨ds1, m1⟩, h1, h2⟩ := Outcome.bind_eq_ok.mp h
  simp at h2
  obtain ⟨rfl, rfl, rfl⟩ := h2
  exact ⟨rfl, blkidLoop_labelled _ _ _ _ _ _ _ _ h1 (by simp)⟩

/-- The disks of the cache, when /dev/disk/by-uuid has none. -/
theorem cached_disks {h : DiskHost} (hu : ∀ es, h.byUuid = some es → usable es = []) :
    getDiskInfos h = match cacheOf h with
      | none => .ok (.notAvail, [])
      | some c => (do let (r, ds, m) ← parseBlkid c [] []; return (r, ← setPreferredDisks h ds m)) := by
  rw [C54_when_used hu]
  unfold cacheOf
  cases h.blkidRun <;> cases h.blkidEtc <;> rfl

theorem getDiskInfosDev_no_throw (host : DiskHost) (e : Exn) : getDiskInfosDev host ≠ .throw e := by
  have hp : ∀ u e, parseUuid u ≠ .throw e := by
    intro u e
    unfold parseUuid
    dsimp only
    repeat' split
    all_goals simp
  have hadd : ∀ x ds m e, addUuidEntry x ds m ≠ .throw e := by
    intro x ds m e
    unfold addUuidEntry
    split
    · simp
    · split
      · intro h
        rcases Outcome.bind_eq_throw.mp h with h | ⟨_, _, h⟩
        · exact hp _ _ h
        · simp at h
      · simp
  have hloop : ∀ es ds m e, uuidLoop es ds m ≠ .throw e := by
    intro es
    induction es with
    | nil => intro ds m e; simp [uuidLoop]
    | cons x es ih =>
      intro ds m e h
      unfold uuidLoop at h
      split at h
      · rcases Outcome.bind_eq_throw.mp h with h | ⟨_, _, h⟩
        · exact hadd _ _ _ _ h
        · exact ih _ _ _ h
      · simp at h
  unfold getDiskInfosDev
  intro h
  cases hb : host.byUuid with
  | none => rw [hb] at h; simp at h
  | some es =>
    rw [hb] at h
    dsimp only at h
    rcases Outcome.bind_eq_throw.mp h with h | ⟨_, _, h⟩
    · exact hloop _ _ _ _ h
    · simp at h

theorem byUuid_ok {h : DiskHost} {es : List UuidEntry} (he : h.byUuid = some es) (hne : usable es ≠ []) (ho : ¬ Overruns es)
    (hl : ∀ tab t, h.fstab = some tab → (b!"LABEL=" ++ t) ∈ tab →
      ∀ n ino, (n, ino) ∈ listedDisks es → (lastLabel (labelDir h) ino).isSome = true) :
    ∃ ds, getDiskInfos h = .ok (.ok, ds) := by
  cases hd : getDiskInfosDev h with
  | ub => exact absurd ((C53_undefined_iff he).mp hd) ho
  | throw e => exact absurd hd (getDiskInfosDev_no_throw h e)
  | ok x =>
    obtain ⟨r, ds, m⟩ := x
    obtain ⟨s1, _, _, s2, s3⟩ := getDiskInfosDev_spec he hd
    have hr : r = .ok := s1.mpr hne
    subst hr
    obtain ⟨ds', hp⟩ := labelled_safe (h := h) (ds := ds) m (by
      intro tab t h1 h2 d hdm
      obtain ⟨i, hi, rfl⟩ := List.mem_iff_getElem.mp hdm
      have hl' : i < (listedDisks es).length := by unfold listedDisks; omega
      obtain ⟨x, x1, _, _, _, _, x5, _⟩ := s3 i (listedDisks es)[i].1 (listedDisks es)[i].2 (List.getElem?_eq_getElem hl')
      rw [List.getElem?_eq_getElem hi] at x1
      simp at x1; subst x1
      exact x5.mpr (hl tab t h1 h2 _ _ (List.getElem_mem hl')))
    exact ⟨ds', by simp [getDiskInfos, hd, hp]⟩

/-! ## Hardware that is kept -/

/-- A machine of which only the network counts. -/
def netOnly (m : Machine) : Machine := { m with disks := .ok (.notAvail, []), logOverruns := false }

/-- A machine of which only the disks count. -/
def disksOnly (m : Machine) : Machine := { m with adapters := .ok (.notAvail, []), logOverruns := false }

theorem identifies_netOnly {m : Machine} {n : Int} {bytes : Bytes} (h : Identifies m n bytes)
    (hn : n = 0 ∨ n = 1 ∨ n = -1 ∧ ∃ e, m.exec = .ok e ∧ e.virtualization ≠ .none) : Identifies (netOnly m) n bytes := by
  have h0 : ∀ {n bytes}, Identifies m n bytes → n = 0 ∨ n = 1 → Identifies (netOnly m) n bytes := by
    intro n bytes h hn
    cases h with
    | mac h1 h2 h3 => exact .mac h1 h2 h3
    | ip h1 h2 h3 => exact .ip h1 h2 h3
    | serial => simp at hn
    | label => simp at hn
    | bareMetal => simp at hn
    | virtual => simp at hn
  rcases hn with h1 | h1 | ⟨rfl, e, h1, h2⟩
  · exact h0 h (.inl h1)
  · exact h0 h (.inr h1)
  · cases h with
    | bareMetal g1 g2 g3 => rw [h1] at g1; cases g1; exact absurd g2 h2
    | virtual g1 g2 g3 => exact .virtual g1 g2 (h0 g3 (.inl rfl))

theorem identifies_disksOnly {m : Machine} {n : Int} {bytes : Bytes} (h : Identifies m n bytes)
    (hn : n = 2 ∨ n = -1 ∧ ∃ e, m.exec = .ok e ∧ e.virtualization = .none) : Identifies (disksOnly m) n bytes := by
  have h0 : ∀ {n bytes}, Identifies m n bytes → n = 2 → Identifies (disksOnly m) n bytes := by
    intro n bytes h hn
    cases h with
    | mac => simp at hn
    | ip => simp at hn
    | serial h1 h2 h3 h4 => exact .serial h1 h2 h3 h4
    | label h1 h2 h3 h4 h5 h6 => exact .label h1 h2 h3 h4 h5 h6
    | bareMetal => simp at hn
    | virtual => simp at hn
  rcases hn with h1 | ⟨rfl, e, h1, h2⟩
  · exact h0 h h1
  · cases h with
    | bareMetal g1 g2 g3 => exact .bareMetal g1 g2 (h0 g3 rfl)
    | virtual g1 g2 g3 =>
      rw [h1] at g1; cases g1
      rw [h2] at g2; simp at g2

theorem extends_net {l l' : Linux} (ho : l.net.Ordered) (ho' : l'.net.Ordered) (hk : NetworkKept l l') :
    Extends (netOnly l.os.machine) l'.os.machine := by
  obtain ⟨es, es', he, he', hk⟩ := hk
  refine ⟨fun as h => ?_, fun ds h => by simp [netOnly] at h⟩
  have h' : getAdapterInfos l.net = (.ok, as) := by simpa [netOnly, Os.machine, Linux.os, he] using h
  obtain ⟨as', h1, h2⟩ := adapters_kept ho ho' he he' hk h'
  exact ⟨as', by simp [Os.machine, Linux.os, he', h1], h2⟩

theorem extends_disks {l l' : Linux} (hk : DisksKept l l') : Extends (disksOnly l.os.machine) l'.os.machine := by
  refine ⟨fun as h => by simp [disksOnly] at h, fun ds h => ?_⟩
  have hds : getDiskInfos l.disks = .ok (.ok, ds) := by simpa [disksOnly, Os.machine, Linux.os] using h
  cases hk with
  | @byUuid es es' he hne he' hk ho hl =>
    have hne' : usable es' ≠ [] := by
      intro h0
      cases hu : usable es with
      | nil => exact hne hu
      | cons p ps =>
        obtain ⟨ino', h1, _⟩ := hk p.1 p.2 (by simp [listedDisks, hu, firstPerInode])
        unfold listedDisks at h1
        rw [h0] at h1; simp [firstPerInode] at h1
    obtain ⟨ds', hok⟩ := byUuid_ok he' hne' ho hl
    exact disks_kept (o := l.os) (o' := l'.os) he hne he' hk hok hds
  | cache hu hu' hc =>
    rw [cached_disks hu] at hds
    have hds' := cached_disks hu'
    rw [← hc] at hds'
    cases hcache : cacheOf l.disks with
    | none => rw [hcache] at hds; simp at hds
    | some c =>
      rw [hcache] at hds hds'
      dsimp only at hds hds'
      obtain ⟨⟨r, ds1, m⟩, h1, h2⟩ := Outcome.bind_eq_ok.mp hds
      obtain ⟨rfl, hlab⟩ := parseBlkid_labelled h1
      dsimp only at h2
      obtain ⟨ds2, h3, h4⟩ := Outcome.bind_eq_ok.mp h2
      simp at h4; subst h4
      obtain ⟨ds', hp⟩ := labelled_safe (h := l'.disks) (ds := ds1) m (fun _ _ _ _ d hd => (hlab d hd).1)
      rw [h1] at hds'
      simp only [Outcome.ok_bind, hp, Outcome.pure_eq] at hds'
      refine ⟨ds', by simp [Os.machine, Linux.os, hds'], fun d hd => ?_⟩
      obtain ⟨d0, hd0, b, rfl⟩ := (preferred_mem h3).2 d hd
      obtain ⟨b', hb'⟩ := (preferred_mem hp).1 d0 hd0
      exact ⟨fun hs => ⟨_, hb', hs, rfl⟩, fun hs => ⟨_, hb', hs, rfl⟩⟩

/-- What identify_pc stores is the identifier that was generated. -/
theorem generated_of_identify {m : Machine} {strategy : Int} {mem id rest : Bytes} {size : Nat} (h0 : (0 : UInt8) ∉ id)
    (hid : identifyPc m strategy (some mem) size = .ok ⟨true, size, some (id ++ 0 :: rest)⟩) (hmem : size ≤ mem.length) :
    generateUserPcSignature m strategy = .ok id := by
  simp only [identifyPc] at hid
  split at hid
  · rename_i hsz
    cases hgen : generateUserPcSignature m strategy with
    | ub => rw [hgen] at hid; simp at hid
    | throw e => rw [hgen] at hid; simp [logged_ok] at hid
    | ok t =>
      rw [hgen] at hid
      dsimp only at hid
      obtain ⟨x, _, hp⟩ := generateUser_some _ strategy t hgen
      obtain ⟨s, hs, hlen, ht0⟩ := print_length x
      rw [hp] at hs; cases hs
      rw [C37_mstrlcpy mem t [] size ht0 (by omega) hmem] at hid
      dsimp only at hid
      rw [hlen, List.take_of_length_le (by omega)] at hid
      simp only [Outcome.ok.injEq, IdentifyResult.mk.injEq, true_and, Option.some.injEq] at hid
      have e1 := congrArg (List.takeWhile (· ≠ (0 : UInt8))) hid
      rw [List.takeWhile_append_of_pos (by intro a ha; simp; rintro rfl; exact ht0 ha),
        List.takeWhile_append_of_pos (by intro a ha; simp; rintro rfl; exact h0 ha)] at e1
      simp at e1
      rw [e1]
  · simp at hid

/-- An identifier of kept hardware. -/
theorem kept_identifier {l l' : Linux} (ho : l.net.Ordered) (ho' : l'.net.Ordered) {id : Bytes} (h0 : (0 : UInt8) ∉ id)
    (h : IdentifiedOn l l' id) : ∃ m n, generateUserPcSignature m n = .ok id ∧ Extends m l'.os.machine := by
  obtain ⟨strategy, mem, size, rest, n, used, hid, hmem, hs, hk⟩ := h
  have hg := generated_of_identify h0 hid hmem
  obtain ⟨⟨n', used', bytes, p1, p2, p3⟩, _⟩ := (C51_identifier _ _ _).mp hg
  have hn : n' = n := by
    have p1' := (strategyUsed_iff _ _ _ _).mp p1
    have hs' := (strategyUsed_iff _ _ _ _).mp hs
    have e : l.os.machine.strategyVar = l.getenv (b!"IDENTIFICATION_STRATEGY") := rfl
    rw [e, hs'] at p1'
    simp at p1'
    exact p1'.1.symm
  subst hn
  cases hk with
  | network h1 h2 =>
    refine ⟨netOnly l.os.machine, strategy, (C51_identifier _ _ _).mpr ⟨⟨_, _, _, p1, identifies_netOnly p2 ?_, p3⟩, fun _ => rfl⟩,
      extends_net ho ho' h2⟩
    rcases h1 with h1 | h1
    · exact .inl h1
    · exact .inr (.inl h1)
  | disk h2 =>
    exact ⟨disksOnly l.os.machine, strategy, (C51_identifier _ _ _).mpr ⟨⟨_, _, _, p1, identifies_disksOnly p2 (.inl rfl), p3⟩,
      fun _ => rfl⟩, extends_disks h2⟩
  | bareMetal h1 h2 h3 =>
    exact ⟨disksOnly l.os.machine, strategy, (C51_identifier _ _ _).mpr ⟨⟨_, _, _, p1,
      identifies_disksOnly p2 (.inr ⟨rfl, _, h1, h2⟩), p3⟩, fun _ => rfl⟩, extends_disks h3⟩
  | virtual h1 h2 h3 =>
    exact ⟨netOnly l.os.machine, strategy, (C51_identifier _ _ _).mpr ⟨⟨_, _, _, p1,
      identifies_netOnly p2 (.inr (.inr ⟨rfl, _, h1, h2⟩)), p3⟩, fun _ => rfl⟩, extends_net ho ho' h3⟩

/-! ## Licences -/

theorem confirms_log {o : OpenSsl} {b : Bool} {data sig : Bytes} : Confirms { o with logOverruns := b } data sig ↔ Confirms o data sig :=
  ⟨fun ⟨a, b, c, d, e⟩ => ⟨a, b, c, d, e⟩, fun ⟨a, b, c, d, e⟩ => ⟨a, b, c, d, e⟩⟩

/-- **C66**: the whole life of a licence locked to a computer.  identify_pc ran on the computer at some time (`l`); a licence was issued
    for that identifier and signed; the file lies next to the executable.  Then, whenever later (`l'`) the identified hardware is
    still there and the dates are met, acquire_license returns LICENSE_OK, whatever else has changed: other hardware, orders of
    enumeration, environment variables, log file, virtualisation. -/
theorem C66_licence_survives {cfg : Config} {l l' : Linux} {caller : Option Caller} (out : Option LicInfo)
    {exe f data sig text : Bytes} {limits : List (Bytes × Bytes)} (ho : l.net.Ordered) (ho' : l'.net.Ordered)
    (hnear : cfg.nearModule = true) (henv : cfg.withEnvVar = false)
    (hf : FeatureIs cfg caller f) (hmagic : magicOf caller = cfg.magic)
    (hfile : LicenceFile f limits data sig text) (hplace : NextToExecutable l' text exe)
    (hsig : Confirms l'.ssl data sig) (hshort : ∀ d, l'.ssl.bioRead sig = some d → d.length < 512)
    (htime : InTime l' limits) (hid : ∀ id, (b!"client-signature", id) ∈ limits → IdentifiedOn l l' id) :
    ∃ res, acquire cfg l'.world caller none out = .ok res ∧ res.ret = .licenseOk := by
  have hmod : l'.world.moduleName = some exe := by
    rw [Linux.moduleName hplace.path hplace.noNul, List.take_of_length_le (by have := hplace.short.1; omega)]
  refine C56_near_module out hnear henv hf hmagic hmod hplace.short.2 hplace.opens hplace.content hfile.size
    (limits := limits) ⟨hfile.plainFeature, hfile.plainLimits, hfile.distinct, sig, data, hfile.plainSignature, hfile.written, hfile.signedData, ?_⟩
    ⟨htime.begins, fun v hv => ?_, fun id hv => ?_⟩ ⟨fun h => by rw [hmod] at h; simp at h, fun v d hv hd k => ?_⟩
  · exact (C58_accepts_iff _ _ _).mpr ⟨confirms_log.mpr hsig, hshort⟩
  · obtain ⟨d, h1, h2⟩ := htime.ends v hv
    exact ⟨d, h1, fun k => (h2 k).1⟩
  · exact kept_identifier ho ho' (fun h => (((hfile.plainLimits _ hv).2).oneLine 0 h).2.2 rfl) (hid id hv)
  · obtain ⟨d', h1, h2⟩ := htime.ends v hv
    have e1 := seconds_of_notation hd l'.world.mktime
    rw [seconds_of_notation h1 l'.world.mktime] at e1
    simp only [Outcome.ok.injEq] at e1
    rw [← e1]
    exact (h2 k).2

/-! ## Hardware that identifiers describe -/

theorem labelIs_iff (label : Bytes) (h : HwId) : LabelIs label h ↔ ∃ l pad, l = (label.takeWhile (· ≠ 0)).take 6
    ∧ pad = List.replicate (6 - l.length) 0 ∧ ∃ c0, l ++ pad = [c0, h.d2, h.d3, h.d4, h.d5, h.d6] ∧ c0.toNat % 32 = h.d1.toNat % 32
    ∧ h.d7 = 0 := by
  unfold LabelIs
  generalize label.takeWhile (· ≠ 0) = t
  have key : ((t ++ [0, 0, 0, 0, 0, 0]).take 6 : Bytes) = t.take 6 ++ List.replicate (6 - (t.take 6).length) 0 := by
    rw [List.take_append, List.length_take]
    congr 1
    by_cases h6 : t.length ≤ 6
    · rw [Nat.min_eq_right h6]
      have : ∀ n, n ≤ 6 → ([0, 0, 0, 0, 0, 0] : Bytes).take n = List.replicate n 0 := by decide
      exact this _ (by omega)
    · rw [show 6 - t.length = 0 by omega, Nat.min_eq_left (by omega)]; rfl
  constructor
  · rintro ⟨c0, tail, h1, h2, h3⟩
    refine ⟨_, _, rfl, rfl, c0, ?_, h2, h3⟩
    rw [← key, h1]
    rfl
  · rintro ⟨_, _, rfl, rfl, c0, h1, h2, h3⟩
    rw [← key] at h1
    refine ⟨c0, (t ++ [0, 0, 0, 0, 0, 0]).drop 6, ?_, h2, h3⟩
    conv => lhs; rw [← List.take_append_drop 6 (t ++ [0, 0, 0, 0, 0, 0]), h1]
    rfl

theorem mem_listed {h : DiskHost} {es : List UuidEntry} (he : h.byUuid = some es) (hne : usable es ≠ []) {r : FuncRet} {ds : List Disk}
    (hok : getDiskInfos h = .ok (r, ds)) :
    (∀ d ∈ ds, ∃ n, (n, d.id) ∈ listedDisks es ∧ d.sn = serialOf n ∧ d.snInit = true
      ∧ (d.labelInit = true ↔ (lastLabel (labelDir h) d.id).isSome = true) ∧ ∀ l, lastLabel (labelDir h) d.id = some l → d.label = l)
    ∧ (∀ n ino, (n, ino) ∈ listedDisks es → ∃ d ∈ ds, d.id = ino ∧ d.sn = serialOf n ∧ d.snInit = true
      ∧ (d.labelInit = true ↔ (lastLabel (labelDir h) ino).isSome = true) ∧ ∀ l, lastLabel (labelDir h) ino = some l → d.label = l) := by
  obtain ⟨_, c2, c3⟩ := C53_disks he hne hok
  constructor
  · intro d hd
    obtain ⟨i, hi, hdi⟩ := List.mem_iff_getElem.mp hd
    have hl : i < (listedDisks es).length := by unfold listedDisks; omega
    obtain ⟨x, x1, x2, x3, x4, x5, x6⟩ := c3 i (listedDisks es)[i].1 (listedDisks es)[i].2 (List.getElem?_eq_getElem hl)
    rw [List.getElem?_eq_getElem hi, hdi] at x1
    simp at x1; subst x1
    rw [← x2] at x5 x6
    exact ⟨_, by rw [x2]; exact List.getElem_mem hl, x3, x4, x5, x6⟩
  · intro n ino hm
    obtain ⟨i, hi, hni⟩ := List.mem_iff_getElem.mp hm
    obtain ⟨x, x1, x2, x3, x4, x5, x6⟩ := c3 i n ino (by rw [← hni]; exact List.getElem?_eq_getElem hi)
    exact ⟨x, List.mem_of_getElem? x1, x2, x3, x4, x5, x6⟩

theorem matches_carries {l : Linux} (ho : l.net.Ordered) (h : HwId) :
    (HwMatches l.os.machine h → Carries l h) ∧ (Carries l h → (h.d1.toNat / 32 = 2 → ∃ x, getDiskInfos l.disks = .ok x) →
      HwMatches l.os.machine h) := by
  have hadapt : ∀ as, l.os.machine.adapters = .ok (.ok, as) ↔ getAdapterInfos l.net = (.ok, as) := by
    intro as
    by_cases hn : l.os.net.ifaddrs = none ∧ l.os.logOverruns = true
    · rw [show l.os.machine.adapters = .ub from if_pos hn]
      have : l.net.ifaddrs = none := hn.1
      simp [getAdapterInfos, getAdapterInfosNamed, this]
    · rw [show l.os.machine.adapters = .ok (getAdapterInfos l.net) from if_neg hn]; simp
  have hdisks : ∀ ds, l.os.machine.disks = .ok (.ok, ds) ↔ getDiskInfos l.disks = .ok (.ok, ds) := fun ds => Iff.rfl
  have hnet : ∀ {as}, getAdapterInfos l.net = (.ok, as) → ∃ es, l.net.ifaddrs = some es
      ∧ ∀ a, a ∈ as ↔ ∃ name, IsInterface es name ∧ a = adapterOf es name := by
    intro as h1
    cases he : l.net.ifaddrs with
    | none => simp [getAdapterInfos, getAdapterInfosNamed, he] at h1
    | some es =>
      refine ⟨es, rfl, fun a => ?_⟩
      by_cases hne : ∃ name, IsInterface es name
      · obtain ⟨lst, k1, _, k3⟩ := C46_adapters ho he hne
        simp only [getAdapterInfos, k1, Prod.mk.injEq, true_and] at h1
        subst h1
        simp only [List.mem_map, Prod.exists, exists_eq_right]
        exact exists_congr fun name => k3 name a
      · have := (C46_none l.net).1.mpr ⟨es, he, fun name hn => hne ⟨name, hn⟩⟩
        simp only [getAdapterInfos, Prod.mk.injEq] at h1
        rw [this] at h1; simp at h1
  have hnet' : ∀ {es name}, l.net.ifaddrs = some es → IsInterface es name → ∃ as, getAdapterInfos l.net = (.ok, as) ∧ adapterOf es name ∈ as := by
    intro es name he hi
    obtain ⟨lst, k1, _, k3⟩ := C46_adapters ho he ⟨name, hi⟩
    exact ⟨lst.map (·.2), by simp [getAdapterInfos, k1], List.mem_map.mpr ⟨(name, adapterOf es name), (k3 _ _).mpr ⟨hi, rfl⟩, rfl⟩⟩
  unfold HwMatches
  simp only [hadapt, hdisks]
  constructor
  · rintro (⟨h1, as, a, ha, hm, hmac, h0⟩ | ⟨h1, h6, h7, as, a, ha, hm, hip, h0⟩ | ⟨h1, ds, d, hds, hm, hc⟩)
    · obtain ⟨es, he, hes⟩ := hnet ha
      obtain ⟨name, _, rfl⟩ := (hes a).mp hm
      cases hg : (macsOf es name).getLast? with
      | none => exact absurd (by simp [adapterOf, hg]) h0
      | some m =>
        have : (adapterOf es name).mac = m := by simp [adapterOf, hg]
        rw [this] at hmac h0
        exact .mac h1 he hg hmac h0
    · obtain ⟨es, he, hes⟩ := hnet ha
      obtain ⟨name, _, rfl⟩ := (hes a).mp hm
      cases hg : (addressesOf es name).getLast? with
      | none => exact absurd (by simp [adapterOf, hg]) h0
      | some m =>
        have : (adapterOf es name).ip = m := by simp [adapterOf, hg]
        rw [this] at hip h0
        exact .ip h1 he hg hip h0 h6 h7
    · by_cases hu : ∃ es, l.disks.byUuid = some es ∧ usable es ≠ []
      · obtain ⟨es, he, hne⟩ := hu
        obtain ⟨n, g1, g2, g3, g4, g5⟩ := (mem_listed he hne hds).1 d hm
        refine .disk h1 he g1 ?_
        rcases hc with ⟨_, hc⟩ | ⟨hl, hc⟩
        · rw [g2] at hc; exact .inl hc
        · obtain ⟨t, ht⟩ := Option.isSome_iff_exists.mp (g4.mp hl)
          rw [g5 t ht] at hc
          exact .inr ⟨t, ht, (labelIs_iff _ _).mpr hc⟩
      · have hu' : ∀ es, l.disks.byUuid = some es → usable es = [] := fun es he => Classical.byContradiction fun hne => hu ⟨es, he, hne⟩
        rw [cached_disks hu'] at hds
        cases hcache : cacheOf l.disks with
        | none => rw [hcache] at hds; simp at hds
        | some c =>
          rw [hcache] at hds
          dsimp only at hds
          obtain ⟨⟨r, ds1, m⟩, k1, k2⟩ := Outcome.bind_eq_ok.mp hds
          obtain ⟨rfl, _⟩ := parseBlkid_labelled k1
          obtain ⟨ds2, k3, k4⟩ := Outcome.bind_eq_ok.mp k2
          simp at k4; subst k4
          obtain ⟨d0, hd0, b, rfl⟩ := (preferred_mem k3).2 d hm
          refine .cached h1 hu' hcache k1 hd0 ?_
          rcases hc with ⟨_, hc⟩ | ⟨_, hc⟩
          · exact .inl hc
          · exact .inr ((labelIs_iff _ _).mpr hc)
  · intro hc hd
    cases hc with
    | @mac es name m h1 he hg hmac h0 =>
      have hi : IsInterface es name := by
        have := List.mem_of_getLast? hg
        unfold macsOf at this
        obtain ⟨e, e1, e2⟩ := List.mem_filterMap.mp this
        split at e2
        · split at e2
          · rename_i hx; exact ⟨e, e1, hx.1, hx.2.1⟩
          · simp at e2
        · simp at e2
      obtain ⟨as, ha, hm⟩ := hnet' he hi
      have : (adapterOf es name).mac = m := by simp [adapterOf, hg]
      exact .inl ⟨h1, as, _, ha, hm, by rw [this]; exact hmac, by rw [this]; exact h0⟩
    | @ip es name m h1 he hg hmac h0 h6 h7 =>
      have hi : IsInterface es name := by
        have := List.mem_of_getLast? hg
        unfold addressesOf at this
        obtain ⟨e, e1, e2⟩ := List.mem_filterMap.mp this
        split at e2
        · split at e2
          · rename_i hx; exact ⟨e, e1, hx.1, hx.2⟩
          · simp at e2
        · simp at e2
      obtain ⟨as, ha, hm⟩ := hnet' he hi
      have : (adapterOf es name).ip = m := by simp [adapterOf, hg]
      exact .inr (.inl ⟨h1, h6, h7, as, _, ha, hm, by rw [this]; exact hmac, by rw [this]; exact h0⟩)
    | @disk es n ino h1 he hl hx =>
      have hne : usable es ≠ [] := by
        intro h0
        unfold listedDisks at hl
        rw [h0] at hl; simp [firstPerInode] at hl
      obtain ⟨⟨r, ds⟩, hds⟩ := hd h1
      have hr : r = .ok := (C53_disks he hne hds).1
      subst hr
      obtain ⟨d, hm, g1, g2, g3, g4, g5⟩ := (mem_listed he hne hds).2 n ino hl
      refine .inr (.inr ⟨h1, ds, d, hds, hm, ?_⟩)
      rcases hx with hx | ⟨t, ht, hx⟩
      · rw [← g2] at hx; exact .inl ⟨g3, hx⟩
      · rw [← g5 t ht] at hx
        exact .inr ⟨g4.mpr (by rw [ht]; rfl), (labelIs_iff _ _).mp hx⟩
    | @cached c ds m d h1 hu hcache hp hm hx =>
      have hds := cached_disks hu
      rw [hcache] at hds
      dsimp only at hds
      obtain ⟨_, hlab⟩ := parseBlkid_labelled hp
      obtain ⟨ds', hs⟩ := labelled_safe (h := l.disks) (ds := ds) m (fun _ _ _ _ d hd => (hlab d hd).1)
      rw [hp] at hds
      simp only [Outcome.ok_bind, hs, Outcome.pure_eq] at hds
      obtain ⟨b, hb⟩ := (preferred_mem hs).1 d hm
      refine .inr (.inr ⟨h1, ds', _, hds, hb, ?_⟩)
      rcases hx with hx | hx
      · exact .inl ⟨(hlab d hm).2, hx⟩
      · exact .inr ⟨(hlab d hm).1, (labelIs_iff _ _).mp hx⟩

/-- **C66**: which identifiers a computer accepts: those of its hardware, provided the disks can be enumerated if it is a disk
    identifier. -/
theorem C66_identifies_iff {l : Linux} (ho : l.net.Ordered) {id : Bytes} {h : HwId} (hid : HwId.ofString id = .ok h)
    (hd : h.d1.toNat / 32 = 2 → ∃ x, getDiskInfos l.disks = .ok x) :
    validatePcSignature l.os.machine id = .ok .licenseOk ↔ Carries l h := by
  rw [C27_validate_iff]
  constructor
  · rintro ⟨h', h1, h2⟩
    rw [hid] at h1; cases h1
    exact (matches_carries ho h).1 h2
  · intro hc
    exact ⟨h, hid, (matches_carries ho h).2 hc hd⟩

/-- **C66**, the other direction: LICENSE_OK on a computer means that a text was found whose section for the feature has a
    signature that OpenSSL confirms for its contents with the built-in key, within its dates, and locked, if at all, to hardware of
    this computer. -/
theorem C66_sound {cfg : Config} {l : Linux} (ho : l.net.Ordered) {caller : Option Caller} {hint : Option LicenseLocation}
    {out : Option LicInfo} {res : AcquireResult} (h : acquire cfg l.world caller hint out = .ok res) (hok : res.ret = .licenseOk) :
    ∃ f src text k, FeatureIs cfg caller f ∧ Offers cfg l.world hint src text ∧ magicOf caller = cfg.magic
      ∧ (∃ s data, lastValue (b!"sig") (entriesFor f text) = some s ∧ SigningData f (entriesFor f text) data ∧ Confirms l.ssl data s)
      ∧ NotExpired l.world f text (l.clock k) ∧ Started l.world f text (l.clock k)
      ∧ ∀ id, IsLimit (entriesFor f text) (b!"client-signature") id → ∃ x, HwId.ofString id = .ok x ∧ Carries l x := by
  obtain ⟨f, src, text, k, h1, h2, _, h3⟩ := C01_license_ok_sound h hok
  refine ⟨f, src, text, k, h1, h2, h3.magic, ?_, h3.notExpired, h3.started, fun id hid => ?_⟩
  · obtain ⟨s, data, g1, g2, g3⟩ := h3.signed
    exact ⟨s, data, g1, g2, confirms_log.mp ((C58_accepts_iff _ _ _).mp g3).1⟩
  · obtain ⟨x, g1, g2⟩ := h3.machine id hid
    exact ⟨x, g1, (matches_carries ho x).1 g2⟩

/-- **C66**: a licence locked to a computer, copied next to the executable on another one that does not have that hardware, is
    refused. -/
theorem C66_copied_licence_refused {cfg : Config} {l : Linux} (ho : l.net.Ordered) {caller : Option Caller} {out : Option LicInfo}
    {exe f data sig text id : Bytes} {limits : List (Bytes × Bytes)} (henv : cfg.withEnvVar = false)
    (hf : FeatureIs cfg caller f) (hfile : LicenceFile f limits data sig text) (hplace : NextToExecutable l text exe)
    (hid : (b!"client-signature", id) ∈ limits) (hno : ∀ x, HwId.ofString id = .ok x → ¬ Carries l x)
    {res : AcquireResult} (h : acquire cfg l.world caller none out = .ok res) : res.ret ≠ .licenseOk := by
  intro hok
  obtain ⟨f', src, text', k, h1, h2, _, _, _, _, h3⟩ := C66_sound ho h hok
  have := featureIs_unique h1 hf
  subst this
  have hmod : l.world.moduleName = some exe := by
    rw [Linux.moduleName hplace.path hplace.noNul, List.take_of_length_le (by have := hplace.short.1; omega)]
  have ht : text' = text := by
    cases h2 with
    | nearModule g1 g2 g3 g4 =>
      rw [hmod] at g2
      simp only [Option.some.injEq] at g2
      subst g2
      have := hplace.content
      change l.read _ = _ at g4
      rw [this] at g4
      simp only [Option.some.injEq] at g4
      subst g4
      exact List.take_of_length_le hfile.size
    | envLocation g1 => rw [henv] at g1; simp at g1
    | envData g1 => rw [henv] at g1; simp at g1
    | envDataEncoded g1 => rw [henv] at g1; simp at g1
    | hintPath g1 => simp at g1
    | hintPathOddName g1 => simp at g1
    | hintPlain g1 => simp at g1
    | hintEncoded g1 => simp at g1
  subst ht
  let w : World := { l.world with verify := fun _ _ => .ok true }
  have hi : Issued w f' limits text' :=
    ⟨hfile.plainFeature, hfile.plainLimits, hfile.distinct, sig, data, hfile.plainSignature, hfile.written, hfile.signedData, rfl⟩
  obtain ⟨x, g1, g2⟩ := h3 id ((issued_limit hi (by decide) (by decide)).mpr hid)
  exact hno x g1 g2

/-! ## Example -/

/-- Locked to the disk of `sampleLinux`. -/
def boundLimits : List (Bytes × Bytes) := [(b!"valid-to", b!"20300101"), (b!"client-signature", b!"AFuy-3QIv-08Q=")]

def boundText : Bytes := issuedText (b!"test") boundLimits (b!"QUJD")

def boundData : Bytes := b!"TESTclient-signatureAFuy-3QIv-08Q=lic_ver200valid-to20300101"

/-- A computer without virtualisation. -/
def sampleLinux : Linux where
  net := sampleNet
  disks := sampleDisks
  host := { sampleHost with sysVendor := some b!"Dell Inc.\n", modalias := some b!"dmi:bvnDell:\n", cgroup := none, hypervisor := false }
  ssl := ⟨true, fun s => some (s.drop 1), true, true, fun _ => 1, fun data s => if data = boundData ∧ s = b!"UJD" then 1 else 0, false⟩
  getenv := fun _ => none
  exe := some b!"/opt/app"
  clock := fun _ => sampleNow
  mktime := fun y m d => 86400 * (372 * y + 31 * m + d)
  probe := fun p => p = b!"/opt/app.lic"
  read := fun p => if p = b!"/opt/app.lic" then some boundText else none
  log := ⟨none, fun _ => []⟩
  junk := ⟨.info, .licenseOk, [], []⟩

/-- The same computer after a reboot as a virtual machine with the disks in another order, other network interfaces and a long
    TMPDIR. -/
def sampleLinux' : Linux :=
  { sampleLinux with
    net := ⟨none, fun x => x⟩
    disks := sampleOs'.disks
    host := sampleHost
    getenv := fun v => if v = b!"TMPDIR" then some (List.replicate 300 65) else some b!"0" }

theorem sample_file : LicenceFile (b!"test") boundLimits boundData (b!"QUJD") boundText := by
  have plain : ∀ {s : Bytes}, (∀ c ∈ s, c ≠ 10 ∧ c ≠ 13 ∧ c ≠ 0) → (∀ c ∈ s.head?, c ∉ ([32, 9, 10, 11, 12, 13] : Bytes)) →
      (∀ c ∈ s.getLast?, c ∉ ([32, 9, 10, 11, 12, 13] : Bytes)) → PlainText s :=
    fun h1 h2 h3 => ⟨h1, fun c hc => h2 c hc, fun c hc => h3 c hc⟩
  refine ⟨⟨plain (by decide) (by decide) (by decide), by decide⟩, ?_, ?_, plain (by decide) (by decide) (by decide), rfl, ?_, by decide +kernel⟩
  · intro e he
    simp only [boundLimits, List.mem_cons, List.not_mem_nil, or_false] at he
    rcases he with rfl | rfl
    · exact ⟨⟨plain (by decide) (by decide) (by decide), by decide, ⟨118, _, rfl, by decide⟩⟩, plain (by decide) (by decide) (by decide)⟩
    · exact ⟨⟨plain (by decide) (by decide) (by decide), by decide, ⟨99, _, rfl, by decide⟩⟩, plain (by decide) (by decide) (by decide)⟩
  · have : (b!"lic_ver" :: b!"sig" :: boundLimits.map (·.1)).Pairwise (fun a b => Ini.sameName a b = false) := by decide +kernel
    refine this.imp ?_
    intro a b h hs
    rw [← Ini.sameName_iff, h] at hs
    simp at hs
  · exact ⟨[(b!"client-signature", b!"AFuy-3QIv-08Q="), (b!"lic_ver", b!"200"), (b!"valid-to", b!"20300101")], by decide, by decide, rfl⟩

theorem sample_identified : IdentifiedOn sampleLinux sampleLinux' (b!"AFuy-3QIv-08Q=") := by
  refine ⟨-1, List.replicate 20 0, 20, List.replicate 5 0, -1, false, by decide +kernel, by decide, .unset rfl (by simp [sampleLinux]),
    .bareMetal (e := ⟨.none, false, false⟩) (by decide +kernel) rfl (.byUuid rfl (by decide +kernel) rfl sample_keepsDisks ?_ ?_)⟩
  · rintro ⟨before, e, after, i, h1, _, h2, _⟩
    have he := List.mem_append_right before (List.mem_cons_self (a := e) (l := after))
    rw [← h1] at he
    have hall : ∀ e ∈ sampleOs'.disks.byUuid.getD [], roomNeeded e.name ≤ e.name.length := by decide +kernel
    have := hall e he
    omega
  · intro tab t h1
    exact absurd h1 (by change none ≠ some tab; simp)

/-- The hypotheses of C66 are met by these two. -/
example : ∃ res, acquire sampleConfig sampleLinux'.world (some sampleCaller) none none = .ok res ∧ res.ret = .licenseOk := by
  refine C66_licence_survives (l := sampleLinux) none sampleNet_ordered (fun l => .refl l) rfl rfl (f := b!"test")
    (.named ⟨by decide, .inl ⟨List.replicate 11 0, by decide, by decide⟩⟩ (by decide)) rfl sample_file
    (exe := b!"/opt/app") ⟨rfl, by decide, by decide +kernel, by decide +kernel, by decide +kernel⟩
    ⟨rfl, rfl, rfl, rfl, b!"UJD", rfl, by decide +kernel⟩ ?_ ⟨?_, ?_⟩ ?_
  · intro d hd
    cases hd
    decide
  · intro v hv; simp [boundLimits] at hv
  · intro v hv
    have : v = b!"20300101" := by simpa [boundLimits] using hv
    subst this
    exact ⟨⟨2, 0, 3, 0, 0, 1, 0, 1⟩, .inl (by decide), fun k => by
      change sampleNow ≤ (_ : Int) ∧ (_ : Int) - sampleNow < _; decide⟩
  · intro id hid
    have : id = b!"AFuy-3QIv-08Q=" := by simpa [boundLimits] using hid
    subst this
    exact sample_identified

/-- Copied to a computer with other disks it is refused. -/
example : retOf (acquire sampleConfig { sampleLinux with disks := ⟨none, none, none, none, none, none⟩ }.world (some sampleCaller) none none)
    = some .identifiersMismatch := by decide +kernel

/-- A path of 1021 bytes meets the hypotheses of `C66_long_executable_path`. -/
example : acquire sampleConfig { sampleLinux with exe := some (47 :: List.replicate 1020 97) }.world (some sampleCaller) none none = .ub := by
  refine C66_long_executable_path (dir := [47]) (name := List.replicate 1020 97) (f := b!"test") rfl rfl ?_
    (.named ⟨by decide, .inl ⟨List.replicate 11 0, by decide, by decide⟩⟩ (by decide)) ?_ ?_ (.inr ⟨[], 47, rfl, .inl rfl⟩) ?_ ?_
  · intro h
    rcases List.mem_cons.mp h with h | h
    · simp at h
    · have := (List.mem_replicate.mp h).2; simp at this
  · rw [List.length_cons, List.length_replicate]; omega
  · exact List.take_of_length_le (by rw [List.length_cons, List.length_replicate]; omega)
  · intro c hc
    rw [(List.mem_replicate.mp hc).2]
    unfold IsSep; decide
  · intro h
    have := (List.mem_replicate.mp h).2; simp at this

/-- Both cases of `C66_no_network`, and `C66_no_executable`. -/
example : identifyPc sampleLinux'.os.machine 0 (some (List.replicate 20 1)) 20 = .ub :=
  (C66_no_network sampleLinux' rfl _ _ (by decide)).1 ⟨rfl, List.replicate 300 65, rfl, by decide +kernel⟩

example : identifyPc { sampleLinux' with getenv := fun _ => none }.os.machine 0 (some (List.replicate 20 1)) 20
    = .ok ⟨false, 20, some (List.replicate 20 1)⟩ :=
  (C66_no_network { sampleLinux' with getenv := fun _ => none } rfl _ _ (by decide)).2 (by rintro ⟨_, d, h, _⟩; cases h)

example : acquire sampleConfig { sampleLinux' with exe := none }.world (some sampleCaller) none none = .ub :=
  C66_no_executable (f := b!"test") (d := List.replicate 300 65) rfl rfl
    (.named ⟨by decide, .inl ⟨List.replicate 11 0, by decide, by decide⟩⟩ (by decide)) rfl rfl (by decide +kernel)

end Licensecc
