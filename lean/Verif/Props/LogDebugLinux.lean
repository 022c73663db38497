import Verif.Model.LogDebugLinux
import Verif.Props.LogDebugWin
/-!
# C87: debug builds on Linux
-/
namespace Licensecc.LogDebug
open Licensecc Licensecc.Spec Licensecc.Win

/-! ## Messages and result -/

theorem Says.bind_result {α β : Type} (x : Says α) (f : α → Says β) : (x >>= f).result = x.result >>= fun a => (f a).result := by
  show (Says.bind x f).result = _
  unfold Says.bind
  cases h : x.result with
  | ok a => rfl
  | throw e => rfl
  | ub => rfl

theorem Says.pure_result {α : Type} (a : α) : (pure a : Says α).result = .ok a := rfl

/-- None of the messages is malformed. -/
def WellSaid {α : Type} (x : Says α) : Prop := ∀ m ∈ x.said, ¬ Malformed m

theorem WellSaid.pure {α : Type} (a : α) : WellSaid (Pure.pure a : Says α) := fun _ h => by cases h

theorem WellSaid.bind {α β : Type} {x : Says α} {f : α → Says β} (h : WellSaid x) (hf : ∀ a, WellSaid (f a)) : WellSaid (x >>= f) := by
  show WellSaid (Says.bind x f)
  unfold Says.bind
  split
  · intro m hm
    rcases List.mem_append.mp hm with hm | hm
    · exact h m hm
    · exact hf _ m hm
  · exact h
  · exact h

theorem WellSaid.silent {α : Type} (x : Outcome α) : WellSaid (silent x) := fun _ h => by cases h

theorem WellSaid.say {m : Message} (h : ¬ Malformed m) : WellSaid (say m) := fun _ hm => by
  rw [List.mem_singleton.mp hm]; exact h

theorem Says.run_below {α : Type} (g : Log) (x : Says α) : Below (x.run g) x.result := Below.after (tellAll_below g _) _

theorem Says.run_well {α : Type} {g : Log} {x : Says α} (hx : WellSaid x) (hn : 37 ∉ g.now) (hl : g.now.length ≤ 63)
    (ho : g.overruns = false) : x.run g = x.result := by
  unfold Says.run
  rw [tellAll_well hn hl ho hx]
  rfl

/-! ## Network -/

theorem adapters_said (d : LinuxDebug) (o : Os) : WellSaid (getAdapterInfosSays d o) := by
  intro m hm
  unfold getAdapterInfosSays at hm
  dsimp only at hm
  split at hm
  · cases hm
  · obtain ⟨e, _, hm⟩ := List.mem_flatMap.mp hm
    unfold interfaceMessages at hm
    split at hm
    · cases hm
    split at hm
    · cases hm
    rcases List.mem_cons.mp hm with rfl | hm
    · intro h; cases h
    split at hm
    · split at hm
      · rcases List.mem_append.mp hm with hm | hm
        · obtain ⟨b, _, rfl⟩ := List.mem_map.mp hm
          intro h; cases h
        · rw [List.mem_singleton.mp hm]; intro h; cases h
      · cases hm
    · cases hm

/-! ## Disks -/

theorem addUuid_result (d : LinuxDebug) (e : UuidEntry) (ds : List Disk) (m : UuidMap) :
    (addUuidEntrySays d e ds m).result = addUuidEntry e ds m := by
  unfold addUuidEntrySays addUuidEntry
  split
  · rfl
  · cases e.inode with
    | none => rfl
    | some ino =>
      cases e.link with
      | none => rfl
      | some link =>
        dsimp only
        rw [Says.bind_result]
        show (parseUuid e.name >>= _) = _
        cases parseUuid e.name with
        | throw e => rfl
        | ub => rfl
        | ok sn =>
          rw [Outcome.ok_bind, Outcome.ok_bind]
          split <;> simp_all <;> rfl

theorem uuidLoop_result (d : LinuxDebug) (es : List UuidEntry) : ∀ ds m, (uuidLoopSays d es ds m).result = uuidLoop es ds m := by
  induction es with
  | nil => intro ds m; rfl
  | cons e es ih =>
    intro ds m
    rw [uuidLoopSays, uuidLoop]
    split
    · rw [Says.bind_result, addUuid_result]
      cases addUuidEntry e ds m with
      | throw e => rfl
      | ub => rfl
      | ok x => exact ih _ _
    · rfl

theorem dev_result (d : LinuxDebug) (h : DiskHost) : (getDiskInfosDevSays d h).result = getDiskInfosDev h := by
  unfold getDiskInfosDevSays getDiskInfosDev openUuid
  rw [Says.bind_result]
  cases h.byUuid with
  | none => rfl
  | some es =>
    dsimp only
    rw [uuidLoop_result]
    cases uuidLoop es [] [] with
    | throw e => rfl
    | ub => rfl
    | ok x => rfl

theorem markEntry_result (m : UuidMap) (n : Bytes) (ds : List Disk) : (markEntrySays m n ds).result = markEntry m n ds := by
  unfold markEntrySays markEntry
  rw [Says.bind_result]
  show (Outcome.ok () >>= _) = _
  rw [Outcome.ok_bind]
  split
  · cases m.find? (n.drop 5) with
    | none => rfl
    | some id => rfl
  · split
    · rw [Says.bind_result]
      show (markLabel _ _ >>= _) = _
      cases markLabel (n.drop 6) ds <;> rfl
    · rfl

theorem markEntries_result (m : UuidMap) (ns : List Bytes) : ∀ ds, (markEntriesSays m ns ds).result = markEntries m ns ds := by
  induction ns with
  | nil => intro ds; rfl
  | cons n ns ih =>
    intro ds
    rw [markEntriesSays, markEntries, Says.bind_result, markEntry_result]
    cases markEntry m n ds with
    | throw e => rfl
    | ub => rfl
    | ok x => exact ih _

theorem setPreferred_result (h : DiskHost) (ds : List Disk) (m : UuidMap) :
    (setPreferredDisksSays h ds m).result = setPreferredDisks h ds m := by
  unfold setPreferredDisksSays setPreferredDisks
  cases h.fstab with
  | none => rfl
  | some es => exact markEntries_result m es ds

theorem disks_result (d : LinuxDebug) (h : DiskHost) : (getDiskInfosSays d h).result = getDiskInfos h := by
  unfold getDiskInfosSays getDiskInfos
  rw [Says.bind_result, dev_result]
  cases getDiskInfosDev h with
  | throw e => rfl
  | ub => rfl
  | ok x =>
    obtain ⟨r, ds, m⟩ := x
    rw [Outcome.ok_bind, Outcome.ok_bind]
    dsimp only
    have tail : ∀ y : FuncRet × List Disk × UuidMap, ((if y.1 = FuncRet.ok then do
          let ds ← setPreferredDisksSays h y.2.1 y.2.2
          return (y.1, ds)
        else return (y.1, y.2.1)) : Says (FuncRet × List Disk)).result
        = (if y.1 = .ok then do return (y.1, ← setPreferredDisks h y.2.1 y.2.2) else return (y.1, y.2.1)) := by
      intro y
      split
      · rw [Says.bind_result, setPreferred_result]; rfl
      · rfl
    split
    · rw [Says.bind_result]
      show (getDiskInfosBlkid h ds m >>= _) = _
      cases getDiskInfosBlkid h ds m with
      | throw e => rfl
      | ub => rfl
      | ok y => exact tail y
    · exact tail (r, ds, m)

theorem addUuid_said (d : LinuxDebug) (e : UuidEntry) (ds : List Disk) (m : UuidMap) : WellSaid (addUuidEntrySays d e ds m) := by
  unfold addUuidEntrySays
  split
  · exact .pure _
  · cases e.inode with
    | none => exact (WellSaid.say fun h => by cases h).bind fun _ => .pure _
    | some ino =>
      cases e.link with
      | none => exact (WellSaid.say fun h => by cases h).bind fun _ => .pure _
      | some link =>
        refine (WellSaid.silent _).bind fun sn => ?_
        dsimp only
        split
        · exact .pure _
        · exact (WellSaid.say fun h => by cases h).bind fun _ => .pure _

theorem uuidLoop_said (d : LinuxDebug) (es : List UuidEntry) : ∀ ds m, WellSaid (uuidLoopSays d es ds m) := by
  induction es with
  | nil => intro ds m; exact .pure _
  | cons e es ih =>
    intro ds m
    rw [uuidLoopSays]
    split
    · exact (addUuid_said d e ds m).bind fun _ => ih _ _
    · exact .pure _

theorem labels_said (d : LinuxDebug) (dir : Bytes) (es : List LabelEntry) : ∀ ds, ∀ m ∈ labelMessages d dir es ds, ¬ Malformed m := by
  induction es with
  | nil => intro ds m hm; cases hm
  | cons e es ih =>
    intro ds m hm
    unfold labelMessages at hm
    split at hm
    · exact ih _ m hm
    · split at hm
      · split at hm
        · rcases List.mem_cons.mp hm with rfl | hm
          · intro h; cases h
          · exact ih _ m hm
        · exact ih _ m hm
      · rcases List.mem_cons.mp hm with rfl | hm
        · intro h; cases h
        · exact ih _ m hm

theorem dev_said (d : LinuxDebug) (h : DiskHost) : WellSaid (getDiskInfosDevSays d h) := by
  unfold getDiskInfosDevSays openUuid
  refine WellSaid.bind ?_ fun x => WellSaid.bind ?_ fun _ => .pure _
  · split
    · exact uuidLoop_said _ _ _ _
    · exact (WellSaid.say fun h => by cases h).bind fun _ => .pure _
  · intro m hm
    unfold readDiskLabelsMessages at hm
    dsimp only at hm
    split at hm
    · exact labels_said _ _ _ _ m hm
    · split at hm
      · exact labels_said _ _ _ _ m hm
      · rw [List.mem_singleton.mp hm]; intro h; cases h

theorem markEntry_said (m : UuidMap) (n : Bytes) (ds : List Disk) : WellSaid (markEntrySays m n ds) := by
  unfold markEntrySays
  refine (WellSaid.say fun h => by cases h).bind fun _ => ?_
  split
  · split
    · refine WellSaid.bind ?_ fun _ => .pure _
      intro x hx
      dsimp only at hx
      split at hx
      · rw [List.mem_singleton.mp hx]; intro h; cases h
      · cases hx
    · exact (WellSaid.say fun h => by cases h).bind fun _ => .pure _
  · split
    · refine (WellSaid.silent _).bind fun _ => WellSaid.bind ?_ fun _ => .pure _
      intro x hx
      unfold labelFound at hx
      dsimp only at hx
      split at hx
      · rw [List.mem_singleton.mp hx]; intro h; cases h
      · cases hx
    · refine WellSaid.bind ?_ fun _ => .pure _
      intro x hx
      dsimp only at hx
      split at hx
      · rw [List.mem_singleton.mp hx]; intro h; cases h
      · cases hx

theorem markEntries_said (m : UuidMap) (ns : List Bytes) : ∀ ds, WellSaid (markEntriesSays m ns ds) := by
  induction ns with
  | nil => intro ds; exact .pure _
  | cons n ns ih =>
    intro ds
    rw [markEntriesSays]
    exact (markEntry_said m n ds).bind fun _ => ih _

theorem disks_said (d : LinuxDebug) (h : DiskHost) : WellSaid (getDiskInfosSays d h) := by
  unfold getDiskInfosSays
  refine (dev_said d h).bind fun ⟨r, ds, m⟩ => ?_
  dsimp only
  have tail : ∀ y : FuncRet × List Disk × UuidMap, WellSaid ((if y.1 = FuncRet.ok then do
        let ds ← setPreferredDisksSays h y.2.1 y.2.2
        return (y.1, ds)
      else return (y.1, y.2.1)) : Says (FuncRet × List Disk)) := by
    intro y
    split
    · refine WellSaid.bind ?_ fun _ => .pure _
      unfold setPreferredDisksSays
      split
      · exact markEntries_said _ _ _
      · exact (WellSaid.say fun h => by cases h).bind fun _ => .pure _
    · exact .pure _
  split
  · exact (WellSaid.silent _).bind tail
  · exact tail (r, ds, m)

theorem dmi_said (d : LinuxDebug) (h : Host) : WellSaid (⟨dmiMessages d h, execSummary h⟩ : Says _) := by
  intro m hm
  unfold dmiMessages at hm
  rcases List.mem_append.mp hm with hm | hm
  · rcases List.mem_append.mp hm with hm | hm <;> split at hm
    · rw [List.mem_singleton.mp hm]; intro h; cases h
    · cases hm
    · rw [List.mem_singleton.mp hm]; intro h; cases h
    · cases hm
  · split at hm
    · rw [List.mem_singleton.mp hm]; intro h; cases h
    · cases hm

/-! ## The library -/

variable {l : Linux} {d : LinuxDebug}

theorem linux_below (l : Linux) (d : LinuxDebug) : MachineBelow (debugMachine l d) l.world.machine where
  adapters := Says.run_below _ _
  disks := by
    have := Says.run_below (debugLog l d) (getDiskInfosSays d l.disks)
    rw [disks_result] at this
    exact this
  exec := Says.run_below _ _
  strategyVar := rfl
  logOverruns := rfl

theorem linux_same (hn : 37 ∉ d.now) (hl : d.now.length ≤ 63) (ho : l.logOverruns = false) :
    debugMachine l d = l.world.machine := by
  unfold debugMachine
  rw [Says.run_well (g := debugLog l d) (adapters_said d l.os) hn hl ho, Says.run_well (g := debugLog l d) (disks_said d l.disks) hn hl ho,
    Says.run_well (g := debugLog l d) (dmi_said d l.host) hn hl ho, disks_result]
  rfl

/-- **C87**: on Linux a call of a debug build does exactly what the same call of a release build does, if the path of the log file fits in its
    array: if the file is open already, TMPDIR is not set, or it has fewer than 238 bytes. -/
theorem C87_linux_same (hn : 37 ∉ d.now) (hl : d.now.length ≤ 63)
    (hfit : ¬ (l.log.logFile = none ∧ ∃ t, l.getenv (b!"TMPDIR") = some t ∧ 238 ≤ t.length)) (cfg : Config) (caller : Option Caller)
    (hint : Option LicenseLocation) (out : Option LicInfo) : acquireLinux l d cfg caller hint out = Licensecc.acquire cfg l.world caller hint out := by
  have ho : l.logOverruns = false := by
    rw [← Bool.not_eq_true]
    exact fun h => hfit ((Logger.overruns_iff _ _).mp h)
  unfold acquireLinux LogDebug.acquire debugWorld
  rw [linux_same hn hl ho, tell_well (g := debugLog l d) hn hl ho (fun h => by cases h)]
  show (Licensecc.acquire cfg l.world caller hint out >>= fun x => .ok x) = _
  cases Licensecc.acquire cfg l.world caller hint out <;> rfl

/-- **C87** (negation of "whether a licence is valid does not depend on TMPDIR"): otherwise it never returns; where the release build returns,
    it is undefined. -/
theorem C87_linux_tmpdir (hlog : l.log.logFile = none) {t : Bytes} (ht : l.getenv (b!"TMPDIR") = some t) (h : 238 ≤ t.length) (cfg : Config)
    (caller : Option Caller) (hint : Option LicenseLocation) (out : Option LicInfo) {res : AcquireResult}
    (hres : Licensecc.acquire cfg l.world caller hint out = .ok res) : acquireLinux l d cfg caller hint out = .ub := by
  have ho : (debugLog l d).overruns = true := (Logger.overruns_iff _ _).mpr ⟨hlog, t, ht, h⟩
  have hb : Below (acquireLinux l d cfg caller hint out) (Licensecc.acquire cfg l.world caller hint out >>= fun x => .ok x) := by
    refine Below.bind ?_ fun x => ?_
    · exact acquire_below (v := l.world.verify) (fun a b => .refl _) (linux_below l d) caller hint out
    · exact Below.after (tell_below _ _) _
  rcases hb with hb | hb
  · exact hb
  · rw [hres] at hb
    exact absurd hb (C87_overruns ho _ _ _ _ _ _ _)

/-- **C87**: `identify_pc` likewise. -/
theorem C87_linux_identify_same (hn : 37 ∉ d.now) (hl : d.now.length ≤ 63)
    (hfit : ¬ (l.log.logFile = none ∧ ∃ t, l.getenv (b!"TMPDIR") = some t ∧ 238 ≤ t.length)) (strategy : Int) (buf : Option Bytes)
    (size : Nat) : identifyLinux l d strategy buf size = identifyPc l.os.machine strategy buf size := by
  have ho : l.logOverruns = false := by
    rw [← Bool.not_eq_true]
    exact fun h => hfit ((Logger.overruns_iff _ _).mp h)
  unfold identifyLinux
  rw [linux_same hn hl ho]
  rfl

/-- **C87**: otherwise it does the same or is undefined. -/
theorem C87_linux_identify (l : Linux) (d : LinuxDebug) (strategy : Int) (buf : Option Bytes) (size : Nat) :
    identifyLinux l d strategy buf size = .ub ∨ identifyLinux l d strategy buf size = identifyPc l.os.machine strategy buf size :=
  identify_below (linux_below l d) strategy buf size

/-! ## What the log of a debug build names -/

open Spec

def idDevice (x : Disk) : Int × Bytes := (x.id, x.device)

theorem updateFirst_keeps (p : Disk → Bool) (f : Disk → Disk) (hf : ∀ x, idDevice (f x) = idDevice x) (ds : List Disk) :
    (updateFirst p f ds).map idDevice = ds.map idDevice := by
  induction ds with
  | nil => rfl
  | cons x xs ih =>
    unfold updateFirst
    split
    · simp [hf]
    · simp [ih]

theorem labelLoop_keeps (es : List LabelEntry) : ∀ ds, (labelLoop es ds).map idDevice = ds.map idDevice := by
  induction es with
  | nil => intro ds; rfl
  | cons e es ih =>
    intro ds
    unfold labelLoop
    split
    · exact ih _
    · split
      · rw [ih]; apply updateFirst_keeps; intro _; rfl
      · exact ih _

theorem labels_keep (h : DiskHost) (ds : List Disk) : (readDiskLabels h ds).map idDevice = ds.map idDevice := by
  unfold readDiskLabels
  split
  · exact labelLoop_keeps _ _
  · split
    · exact labelLoop_keeps _ _
    · rfl

theorem markLabel_keeps (n : Bytes) (ds : List Disk) : ∀ ds', markLabel n ds = .ok ds' → ds'.map idDevice = ds.map idDevice := by
  induction ds with
  | nil => intro ds' h; cases h; rfl
  | cons x xs ih =>
    intro ds' h
    unfold markLabel at h
    split at h
    · cases h
    · split at h
      · injection h with h; subst h; rfl
      · obtain ⟨y, h1, h2⟩ := Outcome.bind_eq_ok.mp h
        injection h2 with h2; subst h2
        simp [ih y h1]

theorem markEntry_keeps {m : UuidMap} {n : Bytes} {ds ds' : List Disk} (h : markEntry m n ds = .ok ds') :
    ds'.map idDevice = ds.map idDevice := by
  unfold markEntry at h
  split at h
  · split at h
    · injection h with h; subst h
      apply updateFirst_keeps; intro _; rfl
    · injection h with h; subst h; rfl
  · split at h
    · exact markLabel_keeps _ _ _ h
    · injection h with h; subst h; rfl

theorem Says.bind_said {α β : Type} {x : Says α} {f : α → Says β} {a : α} (h : x.result = .ok a) :
    (x >>= f).said = x.said ++ (f a).said := by
  show (Says.bind x f).said = _
  unfold Says.bind
  rw [h]

theorem addUuid_found {d : LinuxDebug} {e : UuidEntry} {ds ds' : List Disk} {m m' : UuidMap} (h : addUuidEntry e ds m = .ok (ds', m')) :
    ds'.map idDevice = ds.map idDevice ++ (addUuidEntrySays d e ds m).said.filterMap foundDisk := by
  unfold addUuidEntry at h
  unfold addUuidEntrySays
  split at h
  · rename_i hs
    rw [if_pos hs]
    injection h with h; injection h with h1 h2; subst h1
    show _ = _ ++ []
    simp
  · rename_i hs
    rw [if_neg hs]
    cases hi : e.inode with
    | none =>
      rw [hi] at h
      injection h with h; injection h with h1 h2; subst h1
      show _ = _ ++ []
      simp
    | some ino =>
      rw [hi] at h
      cases hk : e.link with
      | none =>
        rw [hk] at h
        injection h with h; injection h with h1 h2; subst h1
        show _ = _ ++ []
        simp
      | some link =>
        rw [hk] at h
        obtain ⟨sn, h1, h2⟩ := Outcome.bind_eq_ok.mp h
        dsimp only
        rw [Says.bind_said (a := sn) h1]
        injection h2 with h2; injection h2 with h3 h4
        subst h3
        split
        · show _ = _ ++ []
          simp
        · rw [List.map_append]
          rfl

theorem uuidLoop_found {d : LinuxDebug} (es : List UuidEntry) : ∀ {ds ds' : List Disk} {m m' : UuidMap}, uuidLoop es ds m = .ok (ds', m') →
    ds'.map idDevice = ds.map idDevice ++ (uuidLoopSays d es ds m).said.filterMap foundDisk := by
  induction es with
  | nil =>
    intro ds ds' m m' h
    injection h with h; injection h with h1 h2; subst h1
    show _ = _ ++ []
    simp
  | cons e es ih =>
    intro ds ds' m m' h
    rw [uuidLoop] at h
    rw [uuidLoopSays]
    split at h
    · rename_i hs
      rw [if_pos hs]
      obtain ⟨⟨ds1, m1⟩, h1, h2⟩ := Outcome.bind_eq_ok.mp h
      rw [Says.bind_said ((addUuid_result d e ds m).trans h1), List.filterMap_append, ← List.append_assoc, ← addUuid_found h1]
      exact ih h2
    · rename_i hs
      rw [if_neg hs]
      injection h with h; injection h with h1 h2; subst h1
      show _ = _ ++ []
      simp

theorem labels_found (d : LinuxDebug) (dir : Bytes) (es : List LabelEntry) : ∀ ds, (labelMessages d dir es ds).filterMap foundDisk = [] := by
  induction es with
  | nil => intro ds; rfl
  | cons e es ih =>
    intro ds
    unfold labelMessages
    split
    · exact ih _
    · split
      · split
        · exact ih _
        · exact ih _
      · exact ih _

theorem dev_found {d : LinuxDebug} {h : DiskHost} {r : FuncRet} {ds : List Disk} {m : UuidMap} (hd : getDiskInfosDev h = .ok (r, ds, m)) :
    ds.map idDevice = (getDiskInfosDevSays d h).said.filterMap foundDisk := by
  unfold getDiskInfosDev at hd
  unfold getDiskInfosDevSays
  have hlab : ∀ ds, (readDiskLabelsMessages d h ds).filterMap foundDisk = [] := by
    intro ds
    unfold readDiskLabelsMessages
    split
    · exact labels_found _ _ _ _
    · split
      · exact labels_found _ _ _ _
      · rfl
  obtain ⟨ds1, m1, ho, rfl⟩ : ∃ ds1 m1, ((openUuid d h).result = .ok (ds1, m1) ∧ (openUuid d h).said.filterMap foundDisk = ds1.map idDevice)
      ∧ ds = readDiskLabels h ds1 := by
    unfold openUuid
    cases hu : h.byUuid with
    | none =>
      rw [hu] at hd
      injection hd with hd; injection hd with h3 h4; injection h4 with h4 h5
      exact ⟨_, _, ⟨rfl, rfl⟩, h4.symm⟩
    | some es =>
      rw [hu] at hd
      obtain ⟨⟨ds1, m1⟩, h1, h2⟩ := Outcome.bind_eq_ok.mp hd
      injection h2 with h2; injection h2 with h3 h4; injection h4 with h4 h5
      exact ⟨ds1, m1, ⟨(uuidLoop_result d es [] []).trans h1, by have := uuidLoop_found (d := d) es h1; simpa using this.symm⟩, h4.symm⟩
  rw [Says.bind_said ho.1, List.filterMap_append, ho.2, labels_keep]
  show _ = _ ++ List.filterMap foundDisk (readDiskLabelsMessages d h ds1 ++ [])
  rw [List.append_nil, hlab, List.append_nil]

/-- No message of `x` passes `f`. -/
def Without {α β : Type} (f : Message → Option β) (x : Says α) : Prop := x.said.filterMap f = []

theorem Without.pure {α β : Type} {f : Message → Option β} (a : α) : Without f (Pure.pure a : Says α) := rfl

theorem Without.bind {α β γ : Type} {g : Message → Option γ} {x : Says α} {f : α → Says β} (h : Without g x) (hf : ∀ a, Without g (f a)) :
    Without g (x >>= f) := by
  show Without g (Says.bind x f)
  unfold Without at *
  unfold Says.bind
  split
  · rw [List.filterMap_append, h, hf]; rfl
  · exact h
  · exact h

theorem markEntry_without (m : UuidMap) (n : Bytes) (ds : List Disk) : Without foundDisk (markEntrySays m n ds) := by
  unfold markEntrySays
  refine Without.bind rfl fun _ => ?_
  split
  · split
    · refine Without.bind ?_ fun _ => .pure _
      unfold Without
      dsimp only
      split <;> rfl
    · exact Without.bind rfl fun _ => .pure _
  · split
    · refine Without.bind rfl fun _ => Without.bind ?_ fun _ => .pure _
      unfold Without labelFound
      dsimp only
      split <;> rfl
    · refine Without.bind ?_ fun _ => .pure _
      unfold Without
      dsimp only
      split <;> rfl

theorem markEntries_without (m : UuidMap) (ns : List Bytes) : ∀ ds, Without foundDisk (markEntriesSays m ns ds) := by
  induction ns with
  | nil => intro ds; exact .pure _
  | cons n ns ih => intro ds; rw [markEntriesSays]; exact (markEntry_without m n ds).bind fun _ => ih _

theorem setPreferred_without (h : DiskHost) (ds : List Disk) (m : UuidMap) : Without foundDisk (setPreferredDisksSays h ds m) := by
  unfold setPreferredDisksSays
  split
  · exact markEntries_without _ _ _
  · exact Without.bind rfl fun _ => .pure _

theorem markEntries_keeps (m : UuidMap) (ns : List Bytes) : ∀ {ds ds' : List Disk}, markEntries m ns ds = .ok ds' →
    ds'.map idDevice = ds.map idDevice := by
  induction ns with
  | nil => intro ds ds' h; injection h with h; rw [h]
  | cons n ns ih =>
    intro ds ds' h
    obtain ⟨y, h1, h2⟩ := Outcome.bind_eq_ok.mp h
    rw [ih h2, markEntry_keeps h1]

theorem setPreferred_keeps {h : DiskHost} {ds ds' : List Disk} {m : UuidMap} (hs : setPreferredDisks h ds m = .ok ds') :
    ds'.map idDevice = ds.map idDevice := by
  unfold setPreferredDisks at hs
  split at hs
  · exact markEntries_keeps _ _ hs
  · injection hs with hs; rw [hs]

theorem dev_none {h : DiskHost} {r : FuncRet} {ds : List Disk} {m : UuidMap} (hd : getDiskInfosDev h = .ok (r, ds, m)) (hr : r ≠ .ok) :
    ds.map idDevice = [] := by
  have key : ∀ ds1 : List Disk, (if ds1.length > 0 then FuncRet.ok else .notAvail) = r → (readDiskLabels h ds1).map idDevice = [] := by
    intro ds1 h1
    rw [labels_keep]
    cases ds1 with
    | nil => rfl
    | cons x xs => exact absurd h1.symm hr
  unfold getDiskInfosDev at hd
  cases hu : h.byUuid with
  | none =>
    rw [hu] at hd
    injection hd with hd; injection hd with h3 h4; injection h4 with h4 h5
    rw [← h4]; exact key [] h3
  | some es =>
    rw [hu] at hd
    obtain ⟨⟨ds1, m1⟩, h1, h2⟩ := Outcome.bind_eq_ok.mp hd
    injection h2 with h2; injection h2 with h3 h4; injection h4 with h4 h5
    rw [← h4]; exact key ds1 h3

/-- **C87**: the messages of a debug build on Linux that a disk was found name all disks the library sees, with their devices and in this order, or
    none of them (if they are taken from /run/blkid/blkid.tab or /etc/blkid.tab, which leaves no messages). -/
theorem C87_linux_disks {d : LinuxDebug} {h : DiskHost} {r : FuncRet} {ds : List Disk} (hd : getDiskInfos h = .ok (r, ds)) :
    (getDiskInfosSays d h).said.filterMap foundDisk = ds.map (fun x => (x.id, x.device))
    ∨ (getDiskInfosSays d h).said.filterMap foundDisk = [] := by
  unfold getDiskInfos at hd
  unfold getDiskInfosSays
  obtain ⟨⟨r1, ds1, m1⟩, h1, h2⟩ := Outcome.bind_eq_ok.mp hd
  have hr : (getDiskInfosDevSays d h).result = .ok (r1, ds1, m1) := (dev_result d h).trans h1
  rw [Says.bind_said hr, List.filterMap_append, ← dev_found h1]
  dsimp only at h2 ⊢
  have tail : ∀ y : FuncRet × List Disk × UuidMap, Without foundDisk ((if y.1 = FuncRet.ok then do
        let ds ← setPreferredDisksSays h y.2.1 y.2.2
        return (y.1, ds)
      else return (y.1, y.2.1)) : Says (FuncRet × List Disk)) := by
    intro y
    split
    · exact (setPreferred_without _ _ _).bind fun _ => .pure _
    · exact .pure _
  have hrest : ∀ (x : Says (FuncRet × List Disk)), Without foundDisk x → ds1.map idDevice ++ x.said.filterMap foundDisk = ds1.map idDevice := by
    intro x hx
    rw [hx, List.append_nil]
  by_cases hok : r1 = .ok
  · left
    subst hok
    simp only [ne_eq, not_true, if_false] at h2 ⊢
    refine (hrest _ (tail (.ok, ds1, m1))).trans ?_
    rw [Outcome.ok_bind] at h2
    simp only [if_true] at h2
    obtain ⟨ds2, h3, h4⟩ := Outcome.bind_eq_ok.mp h2
    injection h4 with h4; injection h4 with h4 h5
    subst h5
    exact (setPreferred_keeps h3).symm
  · right
    simp only [ne_eq, hok, not_false_eq_true, if_true] at h2 ⊢
    refine (hrest _ (Without.bind (x := silent (getDiskInfosBlkid h ds1 m1)) rfl tail)).trans ?_
    exact dev_none h1 hok

/-- **C87**: they name the interfaces with an address, but for the loopback interface, in the order in which the system lists them. -/
theorem C87_linux_interfaces (d : LinuxDebug) (o : Os) {es : List IfEntry} (he : o.net.ifaddrs = some es) :
    (getAdapterInfosSays d o).said.filterMap namedInterface
      = (es.filter fun e => e.addr.isSome && (e.flags &&& 8 == 0)).map (·.name) := by
  unfold getAdapterInfosSays
  rw [he]
  dsimp only
  clear he
  induction es with
  | nil => rfl
  | cons e es ih =>
    rw [List.flatMap_cons, List.filterMap_append, ih, List.filter_cons]
    unfold interfaceMessages
    cases ha : e.addr with
    | none => rfl
    | some a =>
      dsimp only
      by_cases hf : e.flags &&& 8 = 0
      · simp only [hf, ne_eq, not_true, if_false, beq_self_eq_true, Option.isSome_some, Bool.and_self, if_true]
        cases a with
        | packet mac =>
          cases e.hasData <;> rfl
        | inet x => rfl
        | other => rfl
      · simp [hf]

/-- **C87**: if a disk was found in /dev/disk/by-uuid, and looking for labels is defined, they name the entries of /etc/fstab in their order. -/
theorem C87_linux_fstab {h : DiskHost} {ds ds' : List Disk} {m : UuidMap} (hs : setPreferredDisks h ds m = .ok ds') {ns : List Bytes}
    (hf : h.fstab = some ns) : (setPreferredDisksSays h ds m).said.filterMap namedEntry = ns := by
  unfold setPreferredDisks at hs
  unfold setPreferredDisksSays
  rw [hf] at hs ⊢
  dsimp only at hs ⊢
  have one : ∀ n ds, (markEntrySays m n ds).said.filterMap namedEntry = [n] := by
    intro n ds
    unfold markEntrySays
    have hb : ∀ x : Says (List Disk), Without namedEntry x → (say (.fstabEntry n) >>= fun _ => x).said.filterMap namedEntry = [n] := by
      intro x hx
      rw [Says.bind_said (a := ()) rfl, List.filterMap_append, hx]
      rfl
    apply hb
    split
    · split
      · refine Without.bind ?_ fun _ => .pure _
        unfold Without
        dsimp only
        split <;> rfl
      · exact Without.bind rfl fun _ => .pure _
    · split
      · refine Without.bind rfl fun _ => Without.bind ?_ fun _ => .pure _
        unfold Without labelFound
        dsimp only
        split <;> rfl
      · refine Without.bind ?_ fun _ => .pure _
        unfold Without
        dsimp only
        split <;> rfl
  clear hf
  induction ns generalizing ds with
  | nil => rfl
  | cons n ns ih =>
    obtain ⟨y, h1, h2⟩ := Outcome.bind_eq_ok.mp hs
    rw [markEntriesSays, Says.bind_said ((markEntry_result m n ds).trans h1), List.filterMap_append, one, ih h2]
    rfl

/-! ## Examples -/

def sampleDebugLinux : LinuxDebug where
  family := fun _ => 10
  opendir := fun _ => b!"No such file or directory"
  stat := fun _ => b!"No such file or directory"
  readlink := fun _ => b!"Invalid argument"
  file := fun _ => b!"Permission denied"
  address := b!"0x7ffd5c7e10f0"
  opens := true
  now := b!"2026-02-03 10:20:30"
  dir := b!"/src"

example : acquireLinux sampleLinux sampleDebugLinux sampleConfig (some sampleCaller) none none
    = Licensecc.acquire sampleConfig sampleLinux.world (some sampleCaller) none none :=
  C87_linux_same (by decide) (by decide) (fun ⟨_, t, h, _⟩ => by cases h) _ _ _ _

/-- Where the release build grants the licence, with a TMPDIR of 300 bytes the debug build crashes. -/
def longLinux : Linux := { sampleLinux with getenv := fun n => if n = b!"TMPDIR" then some (List.replicate 300 97) else none }

example : acquireLinux longLinux sampleDebugLinux sampleConfig (some sampleCaller) none none = .ub
    ∧ retOf (Licensecc.acquire sampleConfig longLinux.world (some sampleCaller) none none) = some .licenseOk := by decide +kernel

example : (getDiskInfosSays sampleDebugLinux sampleLinux.disks).said
    = [.diskFound 11 b!"sda1" b!"A1B2-C3D4", .diskFound 12 b!"sda2" b!"c4e8dc21-6ab4-4d8f-9f5a-0123456789ab", .labelSet 11 b!"sda1" b!"EFI",
      .labelSet 12 b!"sda2" b!"root", .fstabEntry b!"UUID=c4e8dc21-6ab4-4d8f-9f5a-0123456789ab", .preferredUuid 12 b!"sda2",
      .fstabEntry b!"/dev/sda1", .preferredDevice 11 b!"sda1"] := by decide +kernel

example : (getAdapterInfosSays sampleDebugLinux sampleLinux.os).said
    = [.interface b!"eth0" 17, .macByte 2, .macByte 66, .macByte 172, .macByte 17, .macByte 0, .macByte 2, .interfaceEnd b!"eth0",
      .interface b!"wlan0" 2, .interface b!"eth0" 2, .interface b!"eth0" 10] := by decide +kernel

end Licensecc.LogDebug
