import Verif.Props.LogDebug
import Verif.Props.OpenSsl
import Verif.Props.Identify
/-!
# C87: debug builds on Windows
-/
namespace Licensecc.LogDebug
open Licensecc Licensecc.Spec

/-- The first is undefined or the same as the second. -/
def Below {α : Type} (x y : Outcome α) : Prop := x = .ub ∨ x = y

theorem Below.refl {α : Type} (x : Outcome α) : Below x x := .inr rfl
theorem Below.ub {α : Type} (y : Outcome α) : Below .ub y := .inl rfl

theorem Below.bind {α β : Type} {x y : Outcome α} {f g : α → Outcome β} (h : Below x y) (hf : ∀ a, Below (f a) (g a)) :
    Below (x >>= f) (y >>= g) := by
  rcases h with rfl | rfl
  · exact .inl rfl
  · cases x with
    | ok a => exact hf a
    | throw e => exact .inr rfl
    | ub => exact .inl rfl

theorem Below.after {α : Type} {x : Outcome Unit} (hx : Below x (.ok ())) (y : Outcome α) : Below (x >>= fun _ => y) y := by
  rcases hx with rfl | rfl
  · exact .inl rfl
  · exact .inr rfl

theorem tell_below (g : Log) (m : Message) : Below (tell g m) (.ok ()) := by
  unfold tell
  split
  · exact .inl rfl
  · split
    · unfold Message.written
      have never : ∀ (f : Bytes) (as : List Arg) e, printf f as ≠ .throw e := by
        intro f as
        fun_induction printf f as <;> intro e h
        all_goals first
          | (rcases Outcome.bind_eq_throw.mp h with h | ⟨_, _, h⟩
             · rename_i ih _; exact ih e h
             · cases h)
          | cases h
      split
      · cases hp : printf (g.now ++ m.format) (m.args g.dir) with
        | ok t => exact .inr rfl
        | throw e => exact absurd hp (never _ _ e)
        | ub => exact .inl rfl
      · exact .inl rfl
    · exact .inr rfl

theorem tellAll_below (g : Log) (ms : List Message) : Below (tellAll g ms) (.ok ()) := by
  induction ms with
  | nil => exact .inr rfl
  | cons m ms ih =>
    unfold tellAll
    rcases tell_below g m with h | h <;> rw [h]
    · exact .inl rfl
    · exact ih

/-! ## What follows from the hardware and the check of signatures -/

/-- The machine of the first is that of the second but for calls that are undefined. -/
structure MachineBelow (m' m : Machine) : Prop where
  adapters : Below m'.adapters m.adapters
  disks : Below m'.disks m.disks
  exec : Below m'.exec m.exec
  strategyVar : m'.strategyVar = m.strategyVar
  logOverruns : m'.logOverruns = m.logOverruns

variable {m' m : Machine}

theorem ethernet_below (h : MachineBelow m' m) (b : Bool) : Below (generateEthernetIds m' b) (generateEthernetIds m b) :=
  h.adapters.bind fun _ => .refl _

theorem disk_below (h : MachineBelow m' m) : Below (generateDiskIds m') (generateDiskIds m) :=
  h.disks.bind fun _ => .refl _

theorem alternative_below (h : MachineBelow m' m) (s : Strategy) : Below (alternativeIds m' s) (alternativeIds m s) := by
  unfold alternativeIds
  cases s with
  | ethernet => exact (ethernet_below h _).bind fun _ => .refl _
  | ip => exact (ethernet_below h _).bind fun _ => .refl _
  | disk => exact (disk_below h).bind fun _ => .refl _
  | default => exact .refl _

theorem validateIdentifier_below (h : MachineBelow m' m) (s : Strategy) (id : HwId) :
    Below (validateIdentifier m' s id) (validateIdentifier m s id) := by
  unfold validateIdentifier
  split
  · exact .refl _
  · split
    · exact (alternative_below h s).bind fun _ => .refl _
    · exact .refl _

theorem validate_below (h : MachineBelow m' m) (c : Bytes) : Below (validatePcSignature m' c) (validatePcSignature m c) := by
  unfold validatePcSignature
  have hr : Below (do
      let h ← HwId.ofString c
      let s ← getStrategy h.strategy
      validateIdentifier m' s h) (do
      let h ← HwId.ofString c
      let s ← getStrategy h.strategy
      validateIdentifier m s h) := (Below.refl _).bind fun i => (Below.refl _).bind fun s => validateIdentifier_below h s i
  dsimp only
  rcases hr with hr | hr
  · rw [hr]; exact .inl rfl
  · rw [hr]
    split
    · split
      · unfold Machine.logged; rw [h.logOverruns]; exact .refl _
      · exact .refl _
    · exact .refl _

theorem first_below (h : MachineBelow m' m) (s : Strategy) : Below (generateFirst m' s) (generateFirst m s) :=
  (alternative_below h s).bind fun _ => .refl _

theorem try_below (h : MachineBelow m' m) (ns : List Int) : Below (tryStrategies m' ns) (tryStrategies m ns) := by
  induction ns with
  | nil => exact .refl _
  | cons n ns ih =>
    unfold tryStrategies
    refine (Below.refl _).bind fun s => (first_below h s).bind fun o => ?_
    cases o with
    | none => exact ih
    | some x => exact .refl _

theorem generate_below (h : MachineBelow m' m) (s : Strategy) : Below (generatePcId m' s) (generatePcId m s) := by
  unfold generatePcId
  split
  · exact h.exec.bind fun _ => try_below h _
  · exact first_below h _

theorem signature_below (h : MachineBelow m' m) (n : Int) : Below (generateUserPcSignature m' n) (generateUserPcSignature m n) := by
  unfold generateUserPcSignature Machine.warnUnknown Machine.logged
  rw [h.strategyVar, h.logOverruns]
  refine (Below.refl _).bind fun _ => ?_
  exact (Below.refl _).bind fun s => (generate_below h s).bind fun o => .refl _

theorem identify_below (h : MachineBelow m' m) (n : Int) (buf : Option Bytes) (size : Nat) :
    Below (identifyPc m' n buf size) (identifyPc m n buf size) := by
  unfold identifyPc
  split
  · split
    · rcases signature_below h n with h1 | h1
      · rw [h1]; exact .inl rfl
      · rw [h1]
        unfold Machine.logged
        rw [h.logOverruns]; exact .refl _
    · exact .refl _
  · exact .refl _

/-- `w` with another check of signatures and another machine. -/
def with' (w : World) (v : Bytes → Bytes → Outcome Bool) (m : Machine) : World := { w with verify := v, machine := m }

variable {cfg : Config} {w : World} {v : Bytes → Bytes → Outcome Bool}

theorem judgeLoop_below (hv : ∀ d s, Below (v d s) (w.verify d s)) (h : MachineBelow m' w.machine) (caller : Option Caller)
    (lics : List FullLicense) : ∀ r k, Below (judgeLoop cfg (with' w v m') caller r k lics) (judgeLoop cfg w caller r k lics) := by
  induction lics with
  | nil => intro r k; exact .refl _
  | cons l ls ih =>
    intro r k
    unfold judgeLoop
    dsimp only
    have hs : Below (verifySignature (with' w v m') (withMagic caller l) r) (verifySignature w (withMagic caller l) r) :=
      (hv _ _).bind fun _ => .refl _
    refine hs.bind fun ⟨r1, good⟩ => ?_
    refine (Below.refl (toLicenseInfo w (withMagic caller l) k)).bind fun ⟨i, k1⟩ => ?_
    dsimp only
    split
    · have hl : Below (verifyLimits cfg (with' w v m') (withMagic caller l) r1 k1) (verifyLimits cfg w (withMagic caller l) r1 k1) := by
        unfold verifyLimits
        dsimp only
        split
        · refine (Below.refl _).bind fun ⟨r2, v2⟩ => ?_
          dsimp only
          split
          · refine (Below.refl _).bind fun ⟨r3, v3⟩ => ?_
            dsimp only
            split
            · refine Below.bind ?_ fun ⟨r4, v4⟩ => .refl _
              unfold checkClient
              split
              · exact .refl _
              · exact (validate_below h _).bind fun _ => .refl _
            · exact .refl _
          · exact .refl _
        · exact .refl _
      exact hl.bind fun ⟨r2, k2, v2⟩ => (ih _ _).bind fun _ => .refl _
    · exact (ih _ _).bind fun _ => .refl _

theorem readLicenses_with {m : Machine} (hm : m.logOverruns = w.machine.logOverruns) (hint : Option LicenseLocation) (f : Bytes) :
    readLicenses cfg (with' w v m) hint f = readLicenses cfg w hint f := by
  have h : ∀ l, (∀ r, licenseLocations (with' w v m) l r = licenseLocations w l r)
      ∧ ∀ b p, retrieveContent (with' w v m) l b p = retrieveContent w l b p := by
    intro l
    refine ⟨fun r => ?_, fun b p => ?_⟩
    · have e : ∀ x : Outcome (Registry × List Bytes × Bool), m.logged x = w.machine.logged x := fun x => by
        unfold Machine.logged; rw [hm]
      cases l with
      | applicationFolder =>
        simp only [licenseLocations, with', e]
        cases w.moduleName <;> rfl
      | _ => simp only [licenseLocations, filterExistingFiles_congr (w := w) (w' := with' w v m) rfl] <;> rfl
    · cases l <;> rfl
  unfold readLicenses
  simp only [readLocators_congr _ fun l _ => h l]
  rfl

theorem judge_below (hv : ∀ d s, Below (v d s) (w.verify d s)) (h : MachineBelow m' w.machine) (caller : Option Caller)
    (out : Option LicInfo) (r : Registry) (lics : List FullLicense) :
    Below (judge cfg (with' w v m') caller out r lics) (judge cfg w caller out r lics) := by
  cases lics with
  | nil => exact .refl _
  | cons l ls => exact (judgeLoop_below hv h caller (l :: ls) r 0).bind fun _ => .refl _

theorem acquire_below (hv : ∀ d s, Below (v d s) (w.verify d s)) (h : MachineBelow m' w.machine) (caller : Option Caller)
    (hint : Option LicenseLocation) (out : Option LicInfo) :
    Below (Licensecc.acquire cfg (with' w v m') caller hint out) (Licensecc.acquire cfg w caller hint out) := by
  unfold Licensecc.acquire
  refine (Below.refl _).bind fun f => ?_
  rw [readLicenses_with h.logOverruns]
  exact (Below.refl _).bind fun ⟨r, lics⟩ => judge_below hv h caller out r lics

/-- If the machine is the same, and so are the checks of the signatures of the licences. -/
theorem judgeLoop_same {caller : Option Caller} {lics : List FullLicense} (hv : ∀ l ∈ lics, v l.printForSign l.signature
    = w.verify l.printForSign l.signature) : ∀ r k,
    judgeLoop cfg (with' w v w.machine) caller r k lics = judgeLoop cfg w caller r k lics := by
  induction lics with
  | nil => intro r k; rfl
  | cons l ls ih =>
    intro r k
    have hl : (with' w v w.machine).verify (withMagic caller l).printForSign (withMagic caller l).signature
        = w.verify (withMagic caller l).printForSign (withMagic caller l).signature := hv l (List.mem_cons_self ..)
    simp only [judgeLoop, verifySignature, hl, ih fun x hx => hv x (List.mem_cons_of_mem _ hx)]
    rfl

/-- **C87** (negation of "whether a licence is valid does not depend on the environment"): a debug build writes the last message in every
    call, so it never returns where the path of the log file does not fit in its array, as with a long TMPDIR. -/
theorem C87_overruns {g : Log} (h : g.overruns = true) (cfg : Config) (w : World) (address : Bytes) (caller : Option Caller)
    (hint : Option LicenseLocation) (out : Option LicInfo) (res : AcquireResult) :
    LogDebug.acquire g cfg w address caller hint out ≠ .ok res := by
  intro hr
  obtain ⟨x, _, hr⟩ := Outcome.bind_eq_ok.mp hr
  unfold tell at hr
  rw [h] at hr
  cases hr

end Licensecc.LogDebug

namespace Licensecc.Win
open Licensecc.Spec LogDebug Spec

variable {l : Windows} {d : DebugSystem}

/-- The time as `strftime` writes it. -/
theorem tell_well {g : Log} {m : Message} (hn : 37 ∉ g.now) (hl : g.now.length ≤ 63) (ho : g.overruns = false) (hm : ¬ Malformed m) :
    tell g m = .ok () := by
  unfold tell
  rw [ho]
  simp only [Bool.false_eq_true, if_false]
  split
  · rcases C87_text g.dir g.now m hn hl with ⟨_, t, ht, _⟩ | ⟨h, _⟩
    · rw [ht]; rfl
    · exact absurd h hm
  · rfl

theorem tell_malformed {g : Log} {m : Message} (hn : 37 ∉ g.now) (hl : g.now.length ≤ 63) (ho : g.opens = true) (hm : Malformed m) :
    tell g m = .ub := by
  unfold tell
  split
  · rfl
  · try simp only [ho, if_true]
    rcases C87_text g.dir g.now m hn hl with ⟨h, _⟩ | ⟨_, h⟩
    · exact absurd hm h
    · rw [h]; rfl

theorem tellAll_well {g : Log} (hn : 37 ∉ g.now) (hl : g.now.length ≤ 63) (ho : g.overruns = false) {ms : List Message}
    (hm : ∀ m ∈ ms, ¬ Malformed m) : tellAll g ms = .ok () := by
  induction ms with
  | nil => rfl
  | cons m ms ih =>
    rw [tellAll, tell_well hn hl ho (hm m (List.mem_cons_self ..))]
    exact ih fun x hx => hm x (List.mem_cons_of_mem _ hx)

theorem tellAll_malformed {g : Log} (hn : 37 ∉ g.now) (hl : g.now.length ≤ 63) (ho : g.opens = true) {m : Message} {ms : List Message}
    (hx : m ∈ ms) (hm : Malformed m) : tellAll g ms = .ub := by
  induction ms with
  | nil => cases hx
  | cons a ms ih =>
    rw [tellAll]
    rcases List.mem_cons.mp hx with rfl | hx
    · rw [tell_malformed hn hl ho hm]; rfl
    · rcases tell_below g a with h | h <;> rw [h]
      · rfl
      · exact ih hx

theorem fits_iff (l : Windows) (d : DebugSystem) : (l.debugLog d).overruns = false ↔ LogFits l := by
  show l.logOverruns = false ↔ _
  unfold Windows.logOverruns LogFits
  rw [← Bool.not_eq_true, overrunsWin_iff]
  cases h : l.log.logFile with
  | some p => simp
  | none =>
    cases h2 : l.tempPath with
    | none => simp
    | some t => simp

theorem logs_opens (h : Spec.Logs l d) : (l.debugLog d).opens = true := by
  unfold Windows.debugLog
  rcases h with ⟨p, h⟩ | ⟨t, h1, h2, h3⟩
  · simp only [h]
  · cases h : l.log.logFile with
    | some p => rfl
    | none =>
      have : Logger.getLogFnameWin l.tempPath = .ok (t ++ b!"open-license.log") := by
        rw [h1]
        unfold Logger.getLogFnameWin Logger.strncat Logger.maxPathWin Logger.logNameWin
        dsimp only
        have e : (b!"open-license.log" : Bytes).length = 16 := by decide
        rw [if_pos (by omega), List.take_of_length_le (by omega), if_pos (by rw [List.length_append]; omega)]
      simp only [this, h3]

/-! ## The parts -/

theorem disks_below (g : Log) (ds : List Drive) : Below (getDiskInfosDebug g ds) (.ok (getDiskInfos ds)) := by
  unfold getDiskInfosDebug
  rcases tellAll_below g ((ds.take 40).map driveMessage) with h | h <;> rw [h]
  · exact .inl rfl
  · exact Below.after (tellAll_below g _) _

theorem adapters_below (g : Log) (names : IpAdapter → Bytes) (n : Net) : Below (n.getAdapterInfosDebug g names) n.getAdapterInfos :=
  Below.after (tellAll_below g _) _

theorem verify_below (g : Log) (sys : Bytes → Bytes × Int) (b : Bcrypt) (data sig : Bytes) :
    Below (b.verifyDebug g sys data sig) (b.verify data sig) := by
  have hf : ∀ t, Below (formatError g sys t) (.ok ()) := fun t => tell_below g _
  unfold Bcrypt.verifyDebug Bcrypt.verify
  split
  · exact .refl _
  · split
    · exact Below.after (hf _) _
    · split
      · exact Below.after (tell_below g _) _
      · split
        · exact Below.after (hf _) _
        · cases b.hash data with
          | none => exact Below.after (hf _) _
          | some hh =>
            dsimp only
            unfold Bcrypt.verifyHashDebug Bcrypt.verifyHash
            refine (Below.refl _).bind fun blob => ?_
            dsimp only
            split
            · exact .refl _
            · split
              · exact Below.after (hf _) _
              · refine (Below.refl _).bind fun ⟨m, e⟩ => ?_
                dsimp only
                split
                · rcases hf (b!"error importing public key") with h | h <;> rw [h]
                  · exact .inl rfl
                  · exact Below.after (tell_below g _) _
                · split
                  · rename_i h; rw [h]; exact .refl _
                  · rename_i h
                    rw [Bool.not_eq_true] at h
                    rw [h]; exact Below.after (hf _) _

theorem machine_below (l : Windows) (d : DebugSystem) : MachineBelow (l.debugMachine d) l.world.machine where
  adapters := adapters_below _ _ _
  disks := disks_below _ _
  exec := .refl _
  strategyVar := rfl
  logOverruns := rfl

theorem debugWorld_eq (l : Windows) (d : DebugSystem) :
    l.debugWorld d = with' l.world (l.crypt.verifyDebug (l.debugLog d) d.sys) (l.debugMachine d) := rfl

/-- A refused signature, or one that could not be checked. -/
theorem verify_refused {g : Log} {sys : Bytes → Bytes × Int} {b : Bcrypt} (hn : 37 ∉ g.now) (hl : g.now.length ≤ 63)
    (ho : g.opens = true) {data sig : Bytes} (hv : b.verify data sig = .ok false) (ha : b.properties = true → b.allocated = true) :
    b.verifyDebug g sys data sig = .ub := by
  have hf : ∀ t, formatError g sys t = .ub := fun t => tell_malformed hn hl ho (.formatError _ _ _)
  unfold Bcrypt.verify at hv
  unfold Bcrypt.verifyDebug
  by_cases h1 : b.hashProvider = false
  · simp [h1] at hv
  rw [if_neg h1] at hv ⊢
  by_cases h2 : b.properties = false
  · rw [if_pos h2, hf]; rfl
  rw [if_neg h2] at hv ⊢
  have h3 : ¬ b.allocated = false := by rw [ha (by simpa using h2)]; simp
  rw [if_neg h3] at hv ⊢
  by_cases h4 : b.hashCreated = false
  · rw [if_pos h4, hf]; rfl
  rw [if_neg h4] at hv ⊢
  cases h5 : b.hash data with
  | none => dsimp only; rw [hf]; rfl
  | some h =>
    rw [h5] at hv
    dsimp only at hv ⊢
    unfold Bcrypt.verifyHash at hv
    unfold Bcrypt.verifyHashDebug
    obtain ⟨blob, e1, hv⟩ := Outcome.bind_eq_ok.mp hv
    rw [e1, Outcome.ok_bind]
    by_cases h6 : blob.length = 0
    · rw [if_pos h6]
    rw [if_neg h6] at hv ⊢
    by_cases h7 : b.rsaProvider = false
    · rw [if_pos h7, hf]; rfl
    rw [if_neg h7] at hv ⊢
    obtain ⟨⟨m, e⟩, e2, hv⟩ := Outcome.bind_eq_ok.mp hv
    rw [e2, Outcome.ok_bind]
    dsimp only at hv ⊢
    by_cases h8 : b.imports m e = false
    · rw [if_pos h8, hf]; rfl
    rw [if_neg h8] at hv ⊢
    rw [Outcome.ok.injEq] at hv
    rw [hv, hf]; rfl

theorem verify_confirmed {g : Log} {sys : Bytes → Bytes × Int} {b : Bcrypt} {data sig : Bytes} (hv : b.verify data sig = .ok true) :
    b.verifyDebug g sys data sig = .ok true := by
  unfold Bcrypt.verify at hv
  unfold Bcrypt.verifyDebug
  by_cases h1 : b.hashProvider = false
  · simp [h1] at hv
  rw [if_neg h1] at hv ⊢
  by_cases h2 : b.properties = false
  · simp [h2] at hv
  rw [if_neg h2] at hv ⊢
  by_cases h3 : b.allocated = false
  · simp [h3] at hv
  rw [if_neg h3] at hv ⊢
  by_cases h4 : b.hashCreated = false
  · simp [h4] at hv
  rw [if_neg h4] at hv ⊢
  cases h5 : b.hash data with
  | none => simp [h5] at hv
  | some h =>
    rw [h5] at hv
    dsimp only at hv ⊢
    unfold Bcrypt.verifyHash at hv
    unfold Bcrypt.verifyHashDebug
    obtain ⟨blob, e1, hv⟩ := Outcome.bind_eq_ok.mp hv
    rw [e1, Outcome.ok_bind]
    by_cases h6 : blob.length = 0
    · simp [h6] at hv
    rw [if_neg h6] at hv ⊢
    by_cases h7 : b.rsaProvider = false
    · simp [h7] at hv
    rw [if_neg h7] at hv ⊢
    obtain ⟨⟨m, e⟩, e2, hv⟩ := Outcome.bind_eq_ok.mp hv
    rw [e2, Outcome.ok_bind]
    dsimp only at hv ⊢
    by_cases h8 : b.imports m e = false
    · simp [h8] at hv
    rw [if_neg h8] at hv ⊢
    rw [Outcome.ok.injEq] at hv
    rw [hv]; rfl

theorem driveMessage_malformed (x : Drive) : Malformed (driveMessage x) ↔ x.fixed = false := by
  unfold driveMessage
  cases hx : x.fixed with
  | true =>
    simp only [if_true, Bool.true_eq_false, iff_false]
    split <;> (intro h; cases h)
  | false => simp only [Bool.false_eq_true, if_false, iff_true]; exact .notFixed _

theorem disks_unfixed {g : Log} (hn : 37 ∉ g.now) (hl : g.now.length ≤ 63) (ho : g.opens = true) (hu : UnfixedDrive l) :
    getDiskInfosDebug g l.drives = .ub := by
  obtain ⟨x, hx, hf⟩ := hu
  unfold getDiskInfosDebug
  rw [tellAll_malformed hn hl ho (List.mem_map_of_mem hx) ((driveMessage_malformed x).mpr hf)]
  rfl

theorem disks_fixed {g : Log} (hn : 37 ∉ g.now) (hl : g.now.length ≤ 63) (ho : g.overruns = false) (hu : ¬ UnfixedDrive l) :
    getDiskInfosDebug g l.drives = .ok (getDiskInfos l.drives) := by
  unfold getDiskInfosDebug
  rw [tellAll_well hn hl ho, tellAll_well hn hl ho]
  · rfl
  · intro m hm
    split at hm
    · cases hm
    · rw [List.mem_singleton] at hm; subst hm; intro h; cases h
  · intro m hm
    obtain ⟨x, hx, rfl⟩ := List.mem_map.mp hm
    rw [driveMessage_malformed]
    exact fun h => hu ⟨x, hx, h⟩

theorem adapters_well {g : Log} (hn : 37 ∉ g.now) (hl : g.now.length ≤ 63) (ho : g.overruns = false) (names : IpAdapter → Bytes) (n : Net) :
    n.getAdapterInfosDebug g names = n.getAdapterInfos := by
  unfold Net.getAdapterInfosDebug
  rw [tellAll_well hn hl ho]
  · rfl
  · intro m hm
    obtain ⟨x, hx, rfl⟩ := List.mem_map.mp hm
    intro h; cases h

theorem machine_same (hn : 37 ∉ d.now) (hl : d.now.length ≤ 63) (ho : LogFits l) (hu : ¬ UnfixedDrive l) :
    l.debugMachine d = l.world.machine := by
  have ho' := (fits_iff l d).mpr ho
  unfold Windows.debugMachine
  rw [adapters_well (g := l.debugLog d) hn hl ho', disks_fixed (g := l.debugLog d) hn hl ho' hu]
  rfl

/-! ## C87 -/

/-- **C87**: on Windows a call of a debug build does exactly what the same call of a release build does, or is undefined. -/
theorem C87_windows (cfg : Config) (l : Windows) (d : DebugSystem) (caller : Option Caller) (hint : Option LicenseLocation)
    (out : Option LicInfo) : l.acquireDebug d cfg caller hint out = .ub
      ∨ l.acquireDebug d cfg caller hint out = acquire cfg l.world caller hint out := by
  have h : Below (l.acquireDebug d cfg caller hint out) (acquire cfg l.world caller hint out >>= fun x => .ok x) := by
    refine Below.bind ?_ fun x => ?_
    · rw [debugWorld_eq]
      exact acquire_below (fun a b => verify_below _ _ _ _ _) (machine_below l d) caller hint out
    · exact Below.after (tell_below _ _) _
  have e : (acquire cfg l.world caller hint out >>= fun x => .ok x) = acquire cfg l.world caller hint out := by
    cases acquire cfg l.world caller hint out <;> rfl
  rw [e] at h
  exact h

/-- **C87**: the same for `identify_pc`. -/
theorem C87_windows_identify (l : Windows) (d : DebugSystem) (strategy : Int) (buf : Option Bytes) (size : Nat) :
    l.identifyDebug d strategy buf size = .ub ∨ l.identifyDebug d strategy buf size = identifyPc l.os.machine strategy buf size :=
  identify_below (machine_below l d) strategy buf size

/-- **C87** (negation of "a bad licence is refused"): in a debug build, where messages can be written, a licence for the feature whose
    signature is refused prevents the call from returning, whatever other licences there are: the message about it is not well formed. -/
theorem C87_windows_refused {cfg : Config} {caller : Option Caller} {hint : Option LicenseLocation} {out : Option LicInfo}
    (hlog : Spec.Logs l d) (hn : 37 ∉ d.now) (hl : d.now.length ≤ 63) {f text s data : Bytes} (hc : Candidate cfg l.world caller hint f text)
    (hs : lastValue (b!"sig") (entriesFor f text) = some s) (hd : SigningData f (entriesFor f text) data)
    (hv : l.crypt.verify data s = .ok false) (ha : l.crypt.properties = true → l.crypt.allocated = true) (res : AcquireResult) :
    l.acquireDebug d cfg caller hint out ≠ .ok res := by
  intro h
  obtain ⟨x, h, _⟩ := Outcome.bind_eq_ok.mp h
  obtain ⟨hf, ⟨src, ho⟩, hcomp⟩ := hc
  rw [debugWorld_eq] at h
  obtain ⟨f', hf', h⟩ := Outcome.bind_eq_ok.mp h
  have := featureIs_unique hf (featureOf_iff.mp hf'); subst this
  obtain ⟨⟨r, lics⟩, hr, h⟩ := Outcome.bind_eq_ok.mp h
  rw [readLicenses_with (machine_below l d).logOverruns] at hr
  obtain ⟨x, hx, hlic⟩ := licence_of_complete hr ho hcomp
  have hub : l.crypt.verifyDebug (l.debugLog d) d.sys x.printForSign x.signature = .ub := by
    have e1 : x.signature = s := by
      have := hlic.signature.symm.trans hs
      simpa using this
    have e2 : data = x.printForSign := signingData_unique hd (signingData_of_licence hlic)
    rw [e1, ← e2]
    exact verify_refused (g := l.debugLog d) hn hl (logs_opens hlog) hv ha
  cases lics with
  | nil => cases hx
  | cons y ys =>
    obtain ⟨z, hz, _⟩ := Outcome.bind_eq_ok.mp h
    obtain ⟨g, hg⟩ := judgeLoop_checks hz x hx
    have hg' : l.crypt.verifyDebug (l.debugLog d) d.sys x.printForSign x.signature = .ok g := hg
    rw [hub] at hg'
    cases hg'

/-- **C87**: so where the release build returns, the debug build is undefined. -/
theorem C87_windows_refused_crash {cfg : Config} {caller : Option Caller} {hint : Option LicenseLocation} {out : Option LicInfo}
    {res : AcquireResult} (hres : acquire cfg l.world caller hint out = .ok res)
    (hlog : Spec.Logs l d) (hn : 37 ∉ d.now) (hl : d.now.length ≤ 63) {f text s data : Bytes} (hc : Candidate cfg l.world caller hint f text)
    (hs : lastValue (b!"sig") (entriesFor f text) = some s) (hd : SigningData f (entriesFor f text) data)
    (hv : l.crypt.verify data s = .ok false) (ha : l.crypt.properties = true → l.crypt.allocated = true) :
    l.acquireDebug d cfg caller hint out = .ub := by
  rcases C87_windows cfg l d caller hint out with h | h
  · exact h
  · exact absurd (h.trans hres) (C87_windows_refused hlog hn hl hc hs hd hv ha res)

/-- **C87**: it does what the release build does if the path of the log file fits, every complete licence for the feature that is found is
    confirmed by BCrypt, and the first forty drives are fixed. -/
theorem C87_windows_same {cfg : Config} {caller : Option Caller} {hint : Option LicenseLocation} {out : Option LicInfo}
    (hfit : LogFits l) (hn : 37 ∉ d.now) (hl : d.now.length ≤ 63) (hu : ¬ UnfixedDrive l)
    (hv : ∀ f text s data, Candidate cfg l.world caller hint f text → lastValue (b!"sig") (entriesFor f text) = some s →
      SigningData f (entriesFor f text) data → l.crypt.verify data s = .ok true) :
    l.acquireDebug d cfg caller hint out = acquire cfg l.world caller hint out := by
  unfold Windows.acquireDebug LogDebug.acquire
  rw [tell_well (g := l.debugLog d) hn hl ((fits_iff l d).mpr hfit) (fun h => by cases h)]
  have key : acquire cfg (l.debugWorld d) caller hint out = acquire cfg l.world caller hint out := by
    rw [debugWorld_eq, machine_same hn hl hfit hu]
    unfold acquire
    cases hf : featureOf cfg caller with
    | throw e => rfl
    | ub => rfl
    | ok f =>
      rw [Outcome.ok_bind, Outcome.ok_bind, readLicenses_with rfl]
      cases hr : readLicenses cfg l.world hint f with
      | throw e => rfl
      | ub => rfl
      | ok x =>
        obtain ⟨r, lics⟩ := x
        rw [Outcome.ok_bind, Outcome.ok_bind]
        have hsame : ∀ x ∈ lics, l.crypt.verifyDebug (l.debugLog d) d.sys x.printForSign x.signature
            = l.world.verify x.printForSign x.signature := by
          intro x hx
          obtain ⟨src, text, ho, hlic⟩ := (mem_readLicenses hr x).mp hx
          have := hv f text _ _ ⟨featureOf_iff.mp hf, ⟨src, ho⟩, ⟨_, hlic.signature⟩, (Ini.toLong_200 _).mp hlic.version⟩ hlic.signature (signingData_of_licence hlic)
          rw [verify_confirmed this]; exact this.symm
        cases lics with
        | nil => rfl
        | cons y ys =>
          unfold judge
          dsimp only
          rw [judgeLoop_same hsame]
          rfl
  rw [key]
  cases acquire cfg l.world caller hint out <;> rfl

/-- **C87**: `identify_pc` does what it does in a release build if the path of the log file fits and the first forty drives are fixed. -/
theorem C87_windows_identify_same (hfit : LogFits l) (hn : 37 ∉ d.now) (hl : d.now.length ≤ 63) (hu : ¬ UnfixedDrive l) (strategy : Int)
    (buf : Option Bytes) (size : Nat) : l.identifyDebug d strategy buf size = identifyPc l.os.machine strategy buf size := by
  unfold Windows.identifyDebug
  rw [machine_same hn hl hfit hu]
  rfl

/-- **C87** (negation of "identify_pc stores an identifier of this computer"): in a debug build, where messages can be written, a CD-ROM
    drive, a memory stick or a network drive makes a call that looks at the drives undefined: there are fewer arguments than
    directives.  Such are those with the strategy for drives and, on bare metal, with the default strategy. -/
theorem C87_windows_drive {strategy n : Int} {used : Bool} {mem : Bytes} {size : Nat}
    (hlog : Spec.Logs l d) (hn : 37 ∉ d.now) (hl : d.now.length ≤ 63) (hu : UnfixedDrive l)
    (hs : StrategyUsed (l.getenv (b!"IDENTIFICATION_STRATEGY")) strategy n used)
    (hk : n = 2 ∨ n = -1 ∧ ∃ e, l.host.execSummary = .ok e ∧ e.virtualization = .none) (hsize : 20 ≤ size) :
    l.identifyDebug d strategy (some mem) size = .ub := by
  have hdisk : alternativeIds (l.debugMachine d) .disk = .ub := by
    have : (l.debugMachine d).disks = .ub := disks_unfixed (g := l.debugLog d) hn hl (logs_opens hlog) hu
    simp only [alternativeIds, generateDiskIds, this, Outcome.ub_bind]
  have hfirst : generateFirst (l.debugMachine d) .disk = .ub := by
    unfold generateFirst; rw [hdisk]; rfl
  have hgen : ∀ s, getStrategy n = .ok s → generatePcId (l.debugMachine d) s = .ub := by
    intro s h
    have hn' := (getStrategy_code n s).mp h
    rcases hk with h2 | ⟨h2, e, he, hv⟩
    · have : s = .disk := by cases s <;> simp [Strategy.code] at hn' <;> first | rfl | omega
      subst this; exact hfirst
    · have : s = .default := by cases s <;> simp [Strategy.code] at hn' <;> first | rfl | omega
      subst this
      have he' : (l.debugMachine d).exec = .ok e := he
      show ((l.debugMachine d).exec >>= fun e => tryStrategies (l.debugMachine d) (availableStrategies e)) = .ub
      rw [he', Outcome.ok_bind]
      unfold availableStrategies
      rw [hv]
      dsimp only
      rw [tryStrategies, (getStrategy_code 2 .disk).mpr rfl, Outcome.ok_bind, hfirst]; rfl
  obtain ⟨s, hs'⟩ : ∃ s, getStrategy n = .ok s := by
    rcases hk with rfl | ⟨rfl, _⟩
    · exact ⟨.disk, rfl⟩
    · exact ⟨.default, rfl⟩
  have hsel := (strategyUsed_iff _ _ _ _).mp hs
  have hsig : generateUserPcSignature (l.debugMachine d) strategy = .ub := by
    unfold generateUserPcSignature
    have e : (l.debugMachine d).strategyVar = l.getenv (b!"IDENTIFICATION_STRATEGY") := rfl
    rw [e, hsel]
    unfold Machine.warnUnknown Machine.logged
    dsimp only
    split
    · split
      · rfl
      · rw [Outcome.ok_bind, hs', Outcome.ok_bind, hgen s hs']; rfl
    · rw [Outcome.ok_bind, hs', Outcome.ok_bind, hgen s hs']; rfl
  unfold Windows.identifyDebug identifyPc
  dsimp only
  rw [if_pos (by omega), hsig]

/-- **C87**: in particular on Windows. -/
theorem C87_windows_overruns (h : ¬ LogFits l) (cfg : Config) (caller : Option Caller) (hint : Option LicenseLocation)
    (out : Option LicInfo) (res : AcquireResult) : l.acquireDebug d cfg caller hint out ≠ .ok res :=
  C87_overruns (Bool.not_eq_false _ ▸ fun h' => h ((fits_iff l d).mp h')) _ _ _ _ _ _ _

/-! ## Examples -/

def sampleDebug : DebugSystem where
  sys := fun _ => (b!"", -1073741816)
  names := fun _ => b!"{4D36E972}"
  address := b!"0000021A5C7E10F0"
  canOpen := fun p => p = b!"C:\\Temp\\open-license.log"
  now := b!"2026-02-03 10:20:30"
  dir := b!"C:\\src"

/-- Its floppy drive A: is not fixed, so a debug build can not identify the computer. -/
example : sampleWindows.identifyDebug sampleDebug (-1) (some (List.replicate 20 0)) 20 = .ub :=
  C87_windows_drive (.inr ⟨_, rfl, by decide, by decide +kernel⟩) (by decide) (by decide) ⟨_, List.mem_cons_self, rfl⟩
    (.unset rfl (by decide)) (.inr ⟨rfl, ⟨.none, false, false⟩, by decide +kernel, rfl⟩) (by decide)

example : sampleWindows.identifyDebug sampleDebug 2 (some (List.replicate 20 0)) 20 = .ub ∧
    identifyPc sampleWindows.os.machine 2 (some (List.replicate 20 0)) 20 = .ok ⟨true, 20, some (b!"AFPC-saAA-AAA=" ++ List.replicate 6 0)⟩ := by
  decide +kernel

/-- Without it. -/
def sampleFixed : Windows := { sampleWindows with drives := sampleWindows.drives.drop 1 }

theorem verify_none {b : Bcrypt} {data s : Bytes} (h : b.verify data s = .ok true) :
    { b with verifies := fun _ _ _ _ => false }.verify data s = .ok false := by
  unfold Bcrypt.verify at *
  dsimp only at *
  split at h
  · cases h
  rename_i h1
  rw [if_neg h1]
  split at h
  · cases h
  rename_i h2
  rw [if_neg h2]
  split at h
  · cases h
  rename_i h3
  rw [if_neg h3]
  split at h
  · cases h
  rename_i h4
  rw [if_neg h4]
  cases h5 : b.hash data with
  | none => rfl
  | some x =>
    rw [h5] at h
    dsimp only at h ⊢
    unfold Bcrypt.verifyHash at *
    obtain ⟨blob, e1, h⟩ := Outcome.bind_eq_ok.mp h
    rw [e1, Outcome.ok_bind]
    split at h
    · cases h
    rename_i h6
    rw [if_neg h6]
    split at h
    · cases h
    rename_i h7
    rw [if_neg h7]
    obtain ⟨⟨m, e⟩, e2, h⟩ := Outcome.bind_eq_ok.mp h
    dsimp only at e2 ⊢
    rw [e2, Outcome.ok_bind]
    dsimp only at h ⊢
    split at h <;> simp_all

theorem bound_in : TextIn (boundText ++ [0]) 4096 boundText := ⟨by decide +kernel, .inl ⟨[], rfl, by decide +kernel⟩⟩

theorem sample_bound : Issued sampleWindows.world (b!"test") boundLimits boundText :=
  ⟨sample_file.plainFeature, sample_file.plainLimits, sample_file.distinct, b!"QUJD", boundData, sample_file.plainSignature,
    sample_file.written, sample_file.signedData, by decide +kernel⟩

/-- With a key to which no signature fits. -/
def sampleOtherKey : Windows := { sampleFixed with crypt := { sampleFixed.crypt with verifies := fun _ _ _ _ => false } }

/-- The licence for this computer, in the hands of someone whose library has another key. -/
example (res : AcquireResult) :
    sampleOtherKey.acquireDebug sampleDebug sampleConfig (some sampleCaller) (some ⟨1, boundText ++ [0]⟩) none ≠ .ok res := by
  have hlogs : Spec.Logs sampleOtherKey sampleDebug := .inr ⟨b!"C:\\Temp\\", rfl, by decide +kernel, by decide +kernel⟩
  obtain ⟨s, data, h1, h2, h3, hlim⟩ := issued_limits sample_bound
  exact C87_windows_refused (f := b!"test") (text := boundText) (s := s) (data := data) hlogs (by decide) (by decide)
    ⟨.named ⟨by decide, .inl ⟨List.replicate 11 0, by decide, by decide⟩⟩ (by decide),
      ⟨_, .hintPlain rfl rfl bound_in (by decide +kernel)⟩,
      ⟨⟨s, h1⟩, b!"200", ((hlim _ _).mpr (.inr (.inl ⟨rfl, rfl⟩))).2, means200⟩⟩ h1 h2 (verify_none (b := sampleWindows.crypt) h3) (fun _ => rfl) res

/-- With the right key it is accepted by both. -/
example : sampleFixed.acquireDebug sampleDebug sampleConfig (some sampleCaller) (some ⟨1, boundText ++ [0]⟩) none
    = acquire sampleConfig sampleFixed.world (some sampleCaller) (some ⟨1, boundText ++ [0]⟩) none
    ∧ retOf (acquire sampleConfig sampleFixed.world (some sampleCaller) (some ⟨1, boundText ++ [0]⟩) none) = some .licenseOk := by
  refine ⟨?_, by decide +kernel⟩
  obtain ⟨s, data, h1, h2, h3, hlim⟩ := issued_limits sample_bound
  refine C87_windows_same (.inr ⟨_, rfl, by decide⟩) (by decide) (by decide) ?_ ?_
  · rintro ⟨x, hx, hf⟩
    have : ∀ x ∈ sampleFixed.drives.take 40, x.fixed = true := by decide
    rw [this x hx] at hf
    cases hf
  · intro f text s' data' hc hs hd
    obtain ⟨hf, ⟨src, ho⟩, hcomp⟩ := hc
    have e1 : f = b!"test" := featureIs_unique hf (.named ⟨by decide, .inl ⟨List.replicate 11 0, by decide, by decide⟩⟩ (by decide))
    subst e1
    have e2 : text = boundText := by
      rcases (offers_plain rfl bound_in (by decide +kernel) src text).mp ho with ho | ⟨_, rfl⟩
      · cases ho with
        | nearModule a b c d =>
          have hm : sampleFixed.world.moduleName = some (b!"C:\\app\\tool.exe") := by decide +kernel
          rw [hm] at b
          injection b with b
          subst b
          have : sampleFixed.world.read (removeExtension (b!"C:\\app\\tool.exe") ++ b!".lic") = some boundText := by decide +kernel
          rw [this] at d
          injection d with d
          subst d
          decide +kernel
        | envLocation a => cases a
        | envData a => cases a
        | envDataEncoded a => cases a
        | hintPath a => cases a
        | hintPathOddName a => cases a
        | hintPlain a => cases a
        | hintEncoded a => cases a
      · rfl
    subst e2
    rw [h1] at hs
    simp only [Option.some.injEq] at hs
    subst hs
    rw [signingData_unique hd h2]
    exact h3

end Licensecc.Win
