import Verif.Lemmas.Threads
import Verif.Props.Linux
import Verif.Props.Logger
/-!
# Calls in several threads (C69): what a call does alone
-/
namespace Licensecc.Threads
open Licensecc.Spec

/-! ## A call made alone -/

/-- Does logging overrun in this state? -/
def ov (v : View) (s : Shared) : Bool := Logger.overruns (v.sys.getenv (b!"TMPDIR")) ⟨s .logFile, v.sys.log.files⟩

/-- The operating system, with the behaviour of logging given. -/
def osAt (v : View) (b : Bool) : Os := ⟨v.sys.net, v.sys.disks, v.sys.host, v.sys.getenv (b!"IDENTIFICATION_STRATEGY"), b⟩

/-- The world, with the behaviour of logging given. -/
def worldAt (v : View) (b : Bool) : World :=
  { v.sys.world with verify := { v.sys.ssl with logOverruns := b }.verify, machine := (osAt v b).machine }

theorem world_eq (v : View) : v.sys.world = worldAt v v.sys.logOverruns := rfl
theorem quiet_os (v : View) : v.quiet.os = osAt v false := rfl
theorem quiet_world (v : View) : v.quiet.world = worldAt v false := rfl

/-- Alone, the program has the outcome of the sequential model. -/
def Follows {α : Type} (v : View) (p : Prog α) (x : Bool → Outcome α) : Prop :=
  ∀ s, p.result s = x (ov v s) ∧ (p.result s = .ub ∨ ov v (p.final s) = ov v s)

theorem follows_ret {α : Type} (v : View) (o : Outcome α) : Follows v (.ret o) (fun _ => o) := fun _ => ⟨rfl, .inr rfl⟩

theorem follows_andThen {α β : Type} {v : View} {p : Prog α} {x : Bool → Outcome α} {f : Outcome α → Prog β}
    {y : Outcome α → Bool → Outcome β} (hp : Follows v p x) (hf : ∀ o, Follows v (f o) (y o))
    (hu : ∀ s, (f .ub).result s = .ub) :
    Follows v (p.andThen f) (fun b => y (x b) b) := by
  intro s
  obtain ⟨h1, h2⟩ := hp s
  rw [result_andThen, final_andThen]
  rcases h2 with h2 | h2
  · have h3 := (hf .ub s).1
    dsimp only
    rw [← h1, h2, ← h3, hu, hu]
    exact ⟨rfl, .inl rfl⟩
  · obtain ⟨h3, h4⟩ := hf (p.result s) (p.final s)
    rw [h2] at h3 h4
    exact ⟨by rw [h3, h1], h4⟩

theorem follows_bind {α β : Type} {v : View} {p : Prog α} {x : Bool → Outcome α} {f : α → Prog β} {y : α → Bool → Outcome β}
    (hp : Follows v p x) (hf : ∀ a, Follows v (f a) (y a)) : Follows v (p >>= f) (fun b => x b >>= fun a => y a b) := by
  rw [bind_def]
  have := follows_andThen (y := fun o b => o >>= fun a => y a b) hp (f := fun
    | .ok a => f a
    | .throw e => .ret (.throw e)
    | .ub => .ret .ub) (by
      intro o
      cases o with
      | ok a => exact hf a
      | throw e => exact follows_ret v _
      | ub => exact follows_ret v _) (fun _ => rfl)
  exact this

theorem follows_log (v : View) : Follows v (logP v) (fun b => if b then .ub else .ok ()) := by
  intro s
  unfold logP ov Logger.overruns
  cases hl : s .logFile with
  | some p => simp [Prog.result, Prog.final, hl, logBody, Shared.set]
  | none =>
    cases hg : Logger.getLogFname (v.sys.getenv (b!"TMPDIR")) with
    | ub => simp [Prog.result, hl]
    | throw e =>
      exfalso
      unfold Logger.getLogFname Logger.strncat at hg
      split at hg
      · simp at hg
      · dsimp only at hg
        split at hg <;> simp at hg
    | ok p => 
      cases ho : v.opens p
      · simp [Prog.result, Prog.final, hl, hg, ho, Shared.set]
      · simp [Prog.result, Prog.final, hl, hg, ho, logBody, Shared.set]

theorem Follows.congr {α : Type} {v : View} {p : Prog α} {x y : Bool → Outcome α} (h : Follows v p x) (hxy : ∀ b, x b = y b) :
    Follows v p y := by
  rwa [show x = y from funext hxy] at h

theorem follows_verify (v : View) (d sg : Bytes) : Follows v (verifyP v d sg) (fun b => (worldAt v b).verify d sg) := by
  unfold verifyP initializeP
  have h0 : Follows v (.read .sslInitialized fun
      | none => .write .sslInitialized (some []) (.ret (.ok ()))
      | some _ => .ret (.ok ()) : Prog Unit) (fun _ => .ok ()) := by
    intro s
    cases hs : s .sslInitialized <;> simp [Prog.result, Prog.final, hs, ov, Shared.set]
  refine (follows_bind h0 fun _ => follows_bind (follows_ret v _) fun good =>
    (show Follows v _ (fun b => if good then .ok true else if b then .ub else .ok false) by
      cases good
      · exact (follows_bind (follows_log v) fun _ => follows_ret v _).congr (by intro b; cases b <;> rfl)
      · exact follows_ret v _)).congr ?_
  intro b
  simp only [Outcome.ok_bind]
  show (OpenSsl.verify { v.sys.ssl with logOverruns := false } d sg >>= _) = OpenSsl.verify { v.sys.ssl with logOverruns := b } d sg
  cases b
  · simp only [Bool.false_eq_true, if_false]
    cases OpenSsl.verify { v.sys.ssl with logOverruns := false } d sg with
    | ok g => cases g <;> rfl
    | throw e => rfl
    | ub => rfl
  · unfold OpenSsl.verify OpenSsl.fail
    dsimp only
    cases v.sys.ssl.keyParses
    · rfl
    · cases v.sys.ssl.bioRead sg with
      | none => rfl
      | some x =>
        by_cases hx : signatureBuffer ≤ x.length
        · simp [hx]
        · cases v.sys.ssl.contextCreated
          · simp [hx]
          · cases v.sys.ssl.digestInit
            · simp [hx]
            · by_cases hu : v.sys.ssl.digestUpdate d = 1
              · by_cases hf : v.sys.ssl.digestFinal d x = 1
                · simp [hx, hu, hf]
                · simp [hx, hu, hf]
              · simp [hx, hu]

theorem entry_alone (m : UuidMap) (e : Bytes) (ds : List Disk) (s : Shared) :
    (entryP m e ds).result s = markEntry m e ds ∧ (entryP m e ds).final s = s.set .mntBuffer (some e) := by
  unfold entryP markEntry
  simp only [Prog.result, Prog.final, Shared.set_same, Option.getD_some]
  by_cases hu : (b!"UUID=").isPrefixOf e
  · simp only [hu, if_true]
    have hlen : ¬ e.length < 5 := by
      have := (List.isPrefixOf_iff_prefix.mp hu).length_le
      simp at this; omega
    simp only [hlen, if_false]
    cases m.find? (e.drop 5) <;> simp [Prog.result, Prog.final]
  · simp only [hu, Bool.false_eq_true, if_false, Prog.result, Prog.final, Shared.set_same, Option.getD_some]
    by_cases hlb : (b!"LABEL=").isPrefixOf e
    · have hlen : ¬ e.length < 6 := by
        have := (List.isPrefixOf_iff_prefix.mp hlb).length_le
        simp at this; omega
      simp only [hlb, if_true, hlen, if_false, Prog.result, Prog.final]
      exact ⟨trivial, trivial⟩
    · simp [hlb, Prog.result, Prog.final]

theorem follows_entries (v : View) (m : UuidMap) (es : List Bytes) : ∀ ds, Follows v (entriesP m es ds) (fun _ => markEntries m es ds) := by
  induction es with
  | nil => intro ds s; simp [entriesP, markEntries, Prog.result, Prog.final, ov, Shared.set]
  | cons e es ih =>
    intro ds
    rw [entriesP, markEntries]
    refine follows_bind (x := fun _ => markEntry m e ds) (fun s => ?_) ih
    obtain ⟨h1, h2⟩ := entry_alone m e ds s
    rw [h1, h2]
    exact ⟨rfl, .inr (by simp [ov, Shared.set])⟩

theorem follows_disks (v : View) (h : DiskHost) : Follows v (getDiskInfosP h) (fun _ => getDiskInfos h) := by
  unfold getDiskInfosP
  refine (follows_bind (follows_ret v (listDisks h)) (y := fun (x : FuncRet × List Disk × UuidMap) _ =>
      if x.1 = .ok then (do return (x.1, ← setPreferredDisks h x.2.1 x.2.2)) else .ok (x.1, x.2.1)) fun x => ?_).congr ?_
  · obtain ⟨r, ds, m⟩ := x
    dsimp only
    split
    · refine follows_bind (x := fun _ => setPreferredDisks h ds m) ?_ (fun ds' => follows_ret v _)
      unfold setPreferredP setPreferredDisks
      cases h.fstab with
      | some es => exact follows_entries v m _ _
      | none => exact follows_ret v _
    · exact follows_ret v _
  · intro _
    unfold listDisks getDiskInfos
    simp only [bind_assoc]
    refine congrArg (getDiskInfosDev h >>= ·) (funext fun x => ?_)
    obtain ⟨r, ds, m⟩ := x
    dsimp only
    by_cases hr : r = .ok
    · simp [hr]
    · simp [hr]

theorem follows_ids (v : View) (s : Strategy) : Follows v (alternativeIdsP v s) (fun b => alternativeIds (osAt v b).machine s) := by
  unfold alternativeIdsP
  have hn : ∀ s, s = .ethernet ∨ s = .ip → Follows v (if v.sys.net.ifaddrs = none then do
      logP v
      .ret (alternativeIds v.quiet.os.machine s)
    else .ret (alternativeIds v.quiet.os.machine s)) (fun b => alternativeIds (osAt v b).machine s) := by
    intro s hs
    split
    · rename_i hi
      refine (follows_bind (follows_log v) fun _ => follows_ret v _).congr ?_
      intro b
      cases b
      · rfl
      · have : (osAt v true).machine.adapters = .ub := if_pos ⟨hi, rfl⟩
        rcases hs with rfl | rfl <;> simp [alternativeIds, generateEthernetIds, this]
    · rename_i hi
      refine (follows_ret v _).congr ?_
      intro b
      have : (osAt v b).machine.adapters = (osAt v false).machine.adapters := by
        show (if _ ∧ _ then _ else _) = (if _ ∧ _ then _ else _)
        rw [if_neg (fun h => hi h.1), if_neg (fun h => hi h.1)]
        rfl
      rw [quiet_os]
      rcases hs with rfl | rfl <;> simp [alternativeIds, generateEthernetIds, this]
  cases s with
  | disk =>
    refine (follows_andThen (y := fun o _ => alternativeIds { v.quiet.os.machine with disks := o } .disk) (follows_disks v v.sys.disks)
      (fun o => follows_ret v _) (fun _ => ?_)).congr ?_
    · simp [Prog.result, alternativeIds, generateDiskIds]
    · intro b
      simp [alternativeIds, generateDiskIds, Os.machine, osAt]
  | default => exact (follows_ret v _).congr (fun b => by simp [alternativeIds])
  | ethernet => exact hn _ (.inl rfl)
  | ip => exact hn _ (.inr rfl)

theorem follows_logged {α : Type} (v : View) (x : α) : Follows v (do logP v; return x) (fun b => if b then .ub else .ok x) :=
  (follows_bind (follows_log v) fun _ => follows_ret v _).congr (by intro b; cases b <;> rfl)

theorem follows_validate (v : View) (code : Bytes) :
    Follows v (validatePcSignatureP v code) (fun b => validatePcSignature (osAt v b).machine code) := by
  unfold validatePcSignatureP validatePcSignature
  dsimp only
  have hv : ∀ s h, Follows v (validateIdentifierP v s h) (fun b => validateIdentifier (osAt v b).machine s h) := by
    intro s h
    unfold validateIdentifierP validateIdentifier
    split
    · exact (follows_ret v _)
    · split
      · exact (follows_bind (follows_ids v s) fun ids => follows_ret v _)
      · exact (follows_ret v _)
  have hin := follows_bind (follows_ret v (HwId.ofString code)) fun h => follows_bind (follows_ret v (getStrategy h.strategy)) fun s => hv s h
  refine follows_andThen hin (y := fun o b => match o with
    | .throw e => if e.isLogicError then (osAt v b).machine.logged (.ok .identifiersMismatch) else .throw e
    | r => r) (f := fun
    | .throw e => if e.isLogicError then do
        logP v
        return .identifiersMismatch
      else .ret (.throw e)
    | o => .ret o) ?_ (fun _ => rfl)
  intro o
  cases o with
  | ok a => exact follows_ret v _
  | ub => exact follows_ret v _
  | throw e =>
    dsimp only
    split
    · exact (follows_logged v _)
    · exact follows_ret v _

theorem follows_try (v : View) (ns : List Int) : Follows v (tryStrategiesP v ns) (fun b => tryStrategies (osAt v b).machine ns) := by
  induction ns with
  | nil => exact follows_ret v _
  | cons n ns ih =>
    unfold tryStrategiesP tryStrategies
    refine (follows_bind (follows_ret v _) fun s => follows_bind (follows_ids v s) (y := fun ids b => match ids.head? with
      | some h => .ok (some h)
      | none => tryStrategies (osAt v b).machine ns) fun ids => ?_).congr ?_
    · cases ids.head? with
      | some h => exact follows_ret v _
      | none => exact ih
    · intro b
      simp only [generateFirst, bind_assoc, Outcome.pure_eq, Outcome.ok_bind]
      rfl

theorem follows_generate (v : View) (s : Strategy) : Follows v (generatePcIdP v s) (fun b => generatePcId (osAt v b).machine s) := by
  unfold generatePcIdP generatePcId
  cases s with
  | default => exact follows_bind (follows_ret v _) fun e => follows_try v _
  | ethernet => exact follows_bind (follows_ids v _) fun ids => follows_ret v _
  | ip => exact follows_bind (follows_ids v _) fun ids => follows_ret v _
  | disk => exact follows_bind (follows_ids v _) fun ids => follows_ret v _

theorem follows_user (v : View) (strategy : Int) :
    Follows v (generateUserPcSignatureP v strategy) (fun b => generateUserPcSignature (osAt v b).machine strategy) := by
  unfold generateUserPcSignatureP generateUserPcSignature
  have hw : Follows v (warnUnknownP v strategy) (fun b => (osAt v b).machine.warnUnknown strategy) := by
    unfold warnUnknownP Machine.warnUnknown
    refine Follows.congr (x := fun b => if strategyUnknown (v.sys.getenv (b!"IDENTIFICATION_STRATEGY")) strategy then
      (if b then .ub else .ok ()) else .ok ()) ?_ (fun b => rfl)
    split
    · exact follows_log v
    · exact follows_ret v _
  refine follows_bind hw fun _ => follows_bind (follows_ret v _) fun s => follows_bind (follows_generate v s) fun r => ?_
  cases r with
  | none => exact follows_ret v _
  | some h => exact follows_ret v _

theorem follows_identify (v : View) (strategy : Int) (buf : Option Bytes) (size : Nat) :
    Follows v (identifyPcP v strategy buf size) (fun b => identifyPc (osAt v b).machine strategy buf size) := by
  unfold identifyPcP identifyPc
  cases buf with
  | none => exact follows_ret v _
  | some mem =>
    dsimp only
    split
    · refine follows_andThen (follows_user v strategy) (y := fun (o : Outcome Bytes) (b : Bool) => (match o with
        | .ub => .ub
        | .throw _ => (osAt v b).machine.logged (.ok ⟨false, size, some mem⟩)
        | .ok id => match mstrlcpy mem (id ++ [0]) size with
          | .ok (mem', _) => .ok ⟨true, size, some mem'⟩
          | .throw e => .throw e
          | .ub => .ub : Outcome IdentifyResult)) (f := fun
        | .ub => .ret .ub
        | .throw _ => do
          logP v
          return ⟨false, size, some mem⟩
        | .ok id =>
          match mstrlcpy mem (id ++ [0]) size with
          | .ok (mem', _) => return ⟨true, size, some mem'⟩
          | .throw e => .ret (.throw e)
          | .ub => .ret .ub) (fun o => ?_) (fun _ => rfl)
      cases o with
      | ub => exact follows_ret v _
      | throw e => exact follows_logged v _
      | ok id =>
        dsimp only
        cases mstrlcpy mem (id ++ [0]) size <;> exact follows_ret v _
    · exact follows_ret v _

theorem follows_locations (v : View) (l : Locator) (r : Registry) :
    Follows v (licenseLocationsP v l r) (fun b => licenseLocations (worldAt v b) l r) := by
  have hm : ∀ b, (worldAt v b).moduleName = v.quiet.world.moduleName := fun b => rfl
  unfold licenseLocationsP
  cases l with
  | applicationFolder =>
    cases hn : v.quiet.world.moduleName with
    | none =>
      refine (follows_bind (follows_log v) fun _ => follows_ret v _).congr ?_
      intro b
      simp only [licenseLocations, hm, hn]
      cases b <;> rfl
    | some m =>
      refine (follows_ret v _).congr ?_
      intro b
      simp only [licenseLocations, hm, hn]
      rfl
  | environmentVarLocation =>
    refine (follows_ret v _).congr fun b => ?_
    simp only [licenseLocations]
    rw [show (worldAt v b).getenv = v.quiet.world.getenv from rfl]
    split
    · rw [filterExistingFiles_congr (w' := worldAt v b) (w := v.quiet.world) rfl]
    · rfl
  | environmentVarData => exact (follows_ret v _)
  | externalDefinition loc =>
    refine (follows_ret v _).congr fun b => ?_
    simp only [licenseLocations]
    have := fun r d => filterExistingFiles_congr (w' := worldAt v b) (w := v.quiet.world) rfl externalName d r
    simp only [this]

theorem follows_locators (v : View) (f : Bytes) (ls : List Locator) : ∀ r,
    Follows v (readLocatorsP v f r ls) (fun b => readLocators (worldAt v b) f r ls) := by
  induction ls with
  | nil => intro r; exact follows_ret v _
  | cons l ls ih =>
    intro r
    unfold readLocatorsP readLocators
    refine follows_bind (follows_locations v l r) fun x => ?_
    refine follows_bind (Follows.congr (follows_ret v _) fun b => ?_) fun y => follows_bind (ih _) fun z => follows_ret v _
    exact (readLocations_congr (w' := worldAt v b) (w := v.quiet.world) (fun s => rfl) _ _).symm

theorem follows_read (cfg : Config) (v : View) (hint : Option LicenseLocation) (f : Bytes) :
    Follows v (readLicensesP cfg v hint f) (fun b => readLicenses cfg (worldAt v b) hint f) := by
  unfold readLicensesP readLicenses
  dsimp only
  split
  · exact follows_ret v _
  · refine follows_bind (follows_locators v f _ _) fun x => ?_
    split
    · exact follows_bind (follows_ret v _) fun _ => follows_ret v _
    · exact follows_ret v _

theorem follows_limits (cfg : Config) (v : View) (lic : FullLicense) (r : Registry) (k : Nat) :
    Follows v (verifyLimitsP cfg v lic r k) (fun b => verifyLimits cfg (worldAt v b) lic r k) := by
  unfold verifyLimitsP verifyLimits
  dsimp only
  split
  · refine follows_bind (follows_ret v _) fun x => ?_
    split
    · refine follows_bind (follows_ret v _) fun y => ?_
      split
      · refine follows_bind ?_ fun z => follows_ret v _
        unfold checkClientP checkClient
        cases SMap.find? kClient lic.limits with
        | none => exact follows_ret v _
        | some s => exact follows_bind (follows_validate v _) fun ev => follows_bind (follows_ret v _) fun _ => follows_ret v _
      · exact follows_ret v _
    · exact follows_ret v _
  · exact follows_bind (follows_ret v _) fun _ => follows_ret v _

theorem follows_judge (cfg : Config) (v : View) (caller : Option Caller) (ls : List FullLicense) : ∀ r k,
    Follows v (judgeLoopP cfg v caller r k ls) (fun b => judgeLoop cfg (worldAt v b) caller r k ls) := by
  induction ls with
  | nil => intro r k; exact follows_ret v _
  | cons l ls ih =>
    intro r k
    unfold judgeLoopP judgeLoop
    refine follows_bind ?_ fun x => follows_bind (follows_ret v _) fun y => ?_
    · unfold verifySignatureP verifySignature
      exact follows_bind (follows_verify v _ _) fun g => follows_bind (follows_ret v _) fun _ => follows_ret v _
    · dsimp only
      split
      · exact follows_bind (follows_limits cfg v _ _ _) fun z => follows_bind (ih _ _) fun _ => follows_ret v _
      · exact follows_bind (ih _ _) fun _ => follows_ret v _

theorem follows_acquire (cfg : Config) (v : View) (caller : Option Caller) (hint : Option LicenseLocation) (out : Option LicInfo) :
    Follows v (acquireP cfg v caller hint out) (fun b => acquire cfg (worldAt v b) caller hint out) := by
  unfold acquireP acquire
  refine follows_bind (follows_ret v _) fun f => follows_bind (follows_read cfg v hint f) fun x => ?_
  obtain ⟨r, lics⟩ := x
  cases lics with
  | nil => exact follows_ret v _
  | cons l ls =>
    dsimp only
    unfold judge
    dsimp only
    refine follows_bind (follows_judge cfg v caller _ _ _) fun y => ?_
    obtain ⟨r, k, oks, errs⟩ := y
    cases oks <;> exact follows_ret v _

/-! ## Which cells a call accesses -/

/-- Alone, the program accesses the cell. -/
def Uses {α : Type} (p : Prog α) (s : Shared) (c : Cell) : Prop := ∃ a ∈ p.trace s, a.cell = c

/-- The outcome does not depend on shared memory. -/
def Gives {α : Type} (p : Prog α) (o : Outcome α) : Prop := ∀ s, p.result s = o

/-- Nor does it whether the cell is accessed. -/
def UsesIff {α : Type} (p : Prog α) (c : Cell) (q : Prop) : Prop := ∀ s, Uses p s c ↔ q

/-- The path of the log file fits. -/
def Short (v : View) : Prop := ∀ d, v.sys.getenv (b!"TMPDIR") = some d → d.length < 238

theorem ov_short {v : View} (h : Short v) (s : Shared) : ov v s = false := by
  unfold ov
  rw [Bool.eq_false_iff]
  intro ho
  obtain ⟨_, d, h1, h2⟩ := (Logger.overruns_iff _ _).mp ho
  have := h d h1
  omega

theorem Follows.gives {α : Type} {v : View} {p : Prog α} {x : Bool → Outcome α} (h : Follows v p x) (hs : Short v) : Gives p (x false) := by
  intro s
  rw [(h s).1, ov_short hs]

theorem gives_ret {α : Type} (o : Outcome α) : Gives (.ret o) o := fun _ => rfl

theorem uses_ret {α : Type} (o : Outcome α) (c : Cell) : UsesIff (.ret o) c False := by
  intro s; simp [Uses, Prog.trace]

theorem uses_andThen {α β : Type} {p : Prog α} {f : Outcome α → Prog β} {c : Cell} {o : Outcome α} {q r : Prop} (hg : Gives p o)
    (hp : UsesIff p c q) (hf : UsesIff (f o) c r) : UsesIff (p.andThen f) c (q ∨ r) := by
  intro s
  rw [← hp s, ← hf (p.final s)]
  unfold Uses
  rw [trace_andThen, hg s]
  simp only [List.mem_append, or_and_right, exists_or]

theorem uses_bind {α β : Type} {p : Prog α} {f : α → Prog β} {c : Cell} {o : Outcome α} {q : Prop} {r : α → Prop} (hg : Gives p o)
    (hp : UsesIff p c q) (hf : ∀ a, o = .ok a → UsesIff (f a) c (r a)) : UsesIff (p >>= f) c (q ∨ ∃ a, o = .ok a ∧ r a) := by
  rw [bind_def]
  refine uses_andThen hg hp ?_
  cases o with
  | ok a =>
    intro s
    rw [hf a rfl s]
    simp
  | throw e => intro s; rw [uses_ret _ _ s]; simp
  | ub => intro s; rw [uses_ret _ _ s]; simp

theorem UsesIff.congr {α : Type} {p : Prog α} {c : Cell} {q r : Prop} (h : UsesIff p c q) (hqr : q ↔ r) : UsesIff p c r :=
  fun s => (h s).trans hqr

theorem uses_log {v : View} {c : Cell} (hv : Short v) (hc : c ≠ .tmBuffer) : UsesIff (logP v) c (c = .logFile) := by
  intro s
  have hb : ∀ s, Uses logBody s c ↔ c = .logFile ∨ False := by
    intro s
    unfold Uses logBody
    simp only [Prog.trace]
    cases s.set .tmBuffer (some []) .logFile <;>
      (simp [Prog.trace, eq_comm]; exact fun h => absurd h hc)
  unfold logP
  unfold Uses
  cases hl : s .logFile with
  | some p =>
    have := hb s
    unfold Uses at this
    simp only [Prog.trace, hl, List.mem_cons, or_and_right, exists_or, this]
    simp [eq_comm]
  | none =>
    cases hg : Logger.getLogFname (v.sys.getenv (b!"TMPDIR")) with
    | ub => simp [Prog.trace, hl, hg, eq_comm]
    | throw e => simp [Prog.trace, hl, hg, eq_comm]
    | ok p =>
      cases ho : v.opens p
      · simp [Prog.trace, hl, hg, ho, Shared.set, eq_comm]
      · have := hb (s.set .logFile (some p))
        unfold Uses at this
        simp only [Prog.trace, hl, hg, ho, if_true, Shared.set_same, List.mem_cons, or_and_right, exists_or, this]
        simp [eq_comm]

theorem uses_logged {α : Type} {v : View} {c : Cell} (hv : Short v) (hc : c ≠ .tmBuffer) (o : Outcome α) :
    UsesIff (do logP v; .ret o) c (c = .logFile) :=
  (uses_bind ((follows_log v).gives hv) (uses_log hv hc) (fun _ _ => uses_ret _ c)).congr (by simp)

theorem uses_verify {v : View} {c : Cell} (hv : Short v) (hc : c ≠ .tmBuffer) (d sg : Bytes) :
    UsesIff (verifyP v d sg) c (c = .sslInitialized ∨ c = .logFile ∧ (worldAt v false).verify d sg = .ok false) := by
  unfold verifyP
  have hi : UsesIff initializeP c (c = .sslInitialized) := by
    intro s
    unfold Uses initializeP
    cases hs : s .sslInitialized <;> simp [Prog.trace, hs, eq_comm]
  have hg : Gives initializeP (.ok ()) := by
    intro s
    unfold initializeP
    cases hs : s .sslInitialized <;> simp [Prog.result, hs]
  refine (uses_bind hg hi fun _ _ => uses_bind (gives_ret _) (uses_ret _ c) (r := fun good => c = .logFile ∧ good = false)
    fun good _ => ?_).congr ?_
  · cases good
    · exact (uses_logged hv hc _).congr (by simp)
    · exact (uses_ret _ c).congr (by simp)
  · rw [quiet_world]
    simp [and_comm]

theorem uses_entries {c : Cell} (v : View) (hv : Short v) (m : UuidMap) (es : List Bytes) : ∀ ds, UsesIff (entriesP m es ds) c (c = .mntBuffer) := by
  induction es with
  | nil => intro ds s; simp [entriesP, Uses, Prog.trace, eq_comm]
  | cons e es ih =>
    intro ds
    rw [entriesP]
    refine (uses_bind (fun s => (entry_alone m e ds s).1) (q := c = .mntBuffer) (fun s => ?_) (fun a _ => ih a)).congr ?_
    · unfold Uses entryP
      simp only [Prog.trace, Shared.set_same, Option.getD_some]
      repeat' split
      all_goals (simp only [Prog.trace, Shared.set_same, Option.getD_some]; try split)
      all_goals (try split)
      all_goals simp [Prog.trace, eq_comm]
    · constructor
      · rintro (h | ⟨_, _, h⟩) <;> exact h
      · exact .inl

/-- The disks are listed, and then /etc/fstab is read. -/
def Lists (h : DiskHost) : Prop := h.fstab ≠ none ∧ ∃ ds m, listDisks h = .ok (.ok, ds, m)

theorem uses_disks {c : Cell} (v : View) (hv : Short v) (h : DiskHost) :
    UsesIff (getDiskInfosP h) c (c = .mntBuffer ∧ Lists h) := by
  unfold getDiskInfosP Lists
  refine (uses_bind (gives_ret _) (uses_ret _ c) (r := fun x => c = .mntBuffer ∧ h.fstab ≠ none ∧ x.1 = .ok) fun x _ => ?_).congr ?_
  · obtain ⟨r, ds, m⟩ := x
    dsimp only
    split
    · rename_i hr
      refine (uses_bind (o := setPreferredDisks h ds m) (q := c = .mntBuffer ∧ h.fstab ≠ none) (fun s => ?_) ?_
        (fun _ _ => uses_ret _ c)).congr (by simp [hr])
      · unfold setPreferredP setPreferredDisks
        cases h.fstab with
        | none => rfl
        | some es => exact (follows_entries v m es ds).gives hv s
      · unfold setPreferredP
        cases h.fstab with
        | none => exact (uses_ret _ c).congr (by simp)
        | some es => exact (uses_entries v hv m es ds).congr (by simp)
    · rename_i hr
      exact (uses_ret _ c).congr (by simp [hr])
  · constructor
    · rintro (h | ⟨⟨r, ds, m⟩, h1, h2, h3, h4⟩)
      · exact h.elim
      · exact ⟨h2, h3, ds, m, by rw [h1]; simpa using h4⟩
    · rintro ⟨h1, h2, ds, m, h3⟩
      exact .inr ⟨_, h3, h1, h2, rfl⟩

theorem uses_ids {v : View} {c : Cell} (hv : Short v) (hc : c ≠ .tmBuffer) (s : Strategy) :
    UsesIff (alternativeIdsP v s) c (c = .logFile ∧ (s = .ethernet ∨ s = .ip) ∧ v.sys.net.ifaddrs = none
      ∨ c = .mntBuffer ∧ s = .disk ∧ Lists v.sys.disks) := by
  unfold alternativeIdsP
  cases s with
  | disk =>
    refine UsesIff.congr (uses_andThen (r := False) ((follows_disks v v.sys.disks).gives hv) (uses_disks v hv _) (uses_ret _ c)) ?_
    simp
  | default => exact (uses_ret _ c).congr (by simp)
  | ethernet =>
    dsimp only
    split
    · exact (uses_logged hv hc _).congr (by simp [*])
    · exact (uses_ret _ c).congr (by simp [*])
  | ip =>
    dsimp only
    split
    · exact (uses_logged hv hc _).congr (by simp [*])
    · exact (uses_ret _ c).congr (by simp [*])

theorem disks_cases (h : DiskHost) : (∀ e, getDiskInfos h = .throw e ↔ listDisks h = .throw e)
    ∧ (getDiskInfos h ≠ .ub → ((∃ ds, getDiskInfos h = .ok (.ok, ds)) ↔ ∃ ds m, listDisks h = .ok (.ok, ds, m))) := by
  have heq : getDiskInfos h = listDisks h >>= fun x =>
      if x.1 = .ok then (do return (x.1, ← setPreferredDisks h x.2.1 x.2.2)) else .ok (x.1, x.2.1) := by
    unfold listDisks getDiskInfos
    simp only [bind_assoc]
    refine congrArg (getDiskInfosDev h >>= ·) (funext fun x => ?_)
    obtain ⟨r, ds, m⟩ := x
    dsimp only
    by_cases hr : r = .ok
    · simp [hr]
    · simp [hr]
  have hp : ∀ ds m e, setPreferredDisks h ds m ≠ .throw e := by
    intro ds m e hs
    obtain ⟨ds', h'⟩ := setPreferred_ok (h := h) (ds := ds) (m := m) (by rw [hs]; simp)
    rw [hs] at h'; simp at h'
  rw [heq]
  cases hl : listDisks h with
  | ub => simp
  | throw e => simp
  | ok x =>
    obtain ⟨r, ds, m⟩ := x
    simp only [Outcome.ok_bind]
    by_cases hr : r = .ok
    · subst hr
      simp only [if_true]
      cases hs : setPreferredDisks h ds m with
      | ub => simp
      | throw e => exact absurd hs (hp _ _ _)
      | ok ds' => simp
    · simp [hr]

theorem adapters_no_throw (v : View) : (osAt v false).machine.adapters = .ok (getAdapterInfos v.sys.net) := if_neg (by simp [osAt])

theorem strategy_range (h : HwId) : 0 ≤ h.strategy := by unfold HwId.strategy; omega

theorem uses_validate {v : View} {c : Cell} (hv : Short v) (hc : c ≠ .tmBuffer) {code : Bytes} {ev : EventType}
    (hok : validatePcSignature (osAt v false).machine code = .ok ev) :
    UsesIff (validatePcSignatureP v code) c (c = .logFile ∧ HardwareTrouble v.sys code
      ∨ c = .mntBuffer ∧ ListsDisks v.sys ∧ ∃ h, HwId.ofString code = .ok h ∧ h.strategy = 2) := by
  have hvi : ∀ s h, Follows v (validateIdentifierP v s h) (fun b => validateIdentifier (osAt v b).machine s h) := by
    intro s h
    unfold validateIdentifierP validateIdentifier
    split
    · exact (follows_ret v _)
    · split
      · exact (follows_bind (follows_ids v s) fun ids => follows_ret v _)
      · exact (follows_ret v _)
  have hin := follows_bind (follows_ret v (HwId.ofString code)) fun h => follows_bind (follows_ret v (getStrategy h.strategy)) fun s => hvi s h
  have hg := hin.gives hv
  have huse : UsesIff (do
      let h ← .ret (HwId.ofString code)
      let s ← .ret (getStrategy h.strategy)
      validateIdentifierP v s h : Prog EventType) c (∃ h, HwId.ofString code = .ok h ∧ ∃ s, getStrategy h.strategy = .ok s ∧
        (c = .logFile ∧ (s = .ethernet ∨ s = .ip) ∧ v.sys.net.ifaddrs = none ∨ c = .mntBuffer ∧ s = .disk ∧ Lists v.sys.disks)) := by
    refine (uses_bind (gives_ret _) (uses_ret _ c) fun h _ => uses_bind (gives_ret _) (uses_ret _ c) (r := fun (s : Strategy) =>
      (c = .logFile ∧ (s = .ethernet ∨ s = .ip) ∧ v.sys.net.ifaddrs = none ∨ c = .mntBuffer ∧ s = .disk ∧ Lists v.sys.disks))
      fun s hs => ?_).congr (by simp)
    unfold validateIdentifierP
    split
    · rename_i hd
      exact (uses_ret _ c).congr (by simp [hd])
    · rw [if_pos ((getStrategy_code _ _).mp hs)]
      exact (uses_bind ((follows_ids v s).gives hv) (uses_ids hv hc s) fun _ _ => uses_ret _ c).congr (by simp)
  -- the outcome
  have hub : getDiskInfos v.sys.disks = .ub → ∀ h, HwId.ofString code = .ok h → h.strategy ≠ 2 := by
    intro hu h h1 h2
    have : validatePcSignature (osAt v false).machine code = .ub := by
      unfold validatePcSignature
      rw [h1]
      simp [h2, getStrategy, validateIdentifier, Strategy.code, alternativeIds, generateDiskIds, Os.machine, osAt, hu]
    rw [this] at hok; simp at hok
  have hthrow : (∃ e, (do
      let h ← HwId.ofString code
      let s ← getStrategy h.strategy
      validateIdentifier (osAt v false).machine s h : Outcome EventType) = .throw e ∧ e.isLogicError = true)
      ↔ (∃ e, HwId.ofString code = .throw e) ∨ ∃ h, HwId.ofString code = .ok h ∧ (3 ≤ h.strategy
        ∨ (h.strategy = 2 ∧ ∃ e, getDiskInfos v.sys.disks = .throw e)) := by
    have hlogic : ∀ e, (do
        let h ← HwId.ofString code
        let s ← getStrategy h.strategy
        validateIdentifier (osAt v false).machine s h : Outcome EventType) = .throw e → e.isLogicError = true := by
      intro e he
      unfold validatePcSignature at hok
      dsimp only at hok
      rw [he] at hok
      dsimp only at hok
      cases hl : e.isLogicError with
      | true => rfl
      | false => rw [hl] at hok; simp at hok
    have : (∃ e, (do
        let h ← HwId.ofString code
        let s ← getStrategy h.strategy
        validateIdentifier (osAt v false).machine s h : Outcome EventType) = .throw e ∧ e.isLogicError = true)
      ↔ ∃ e, (do
        let h ← HwId.ofString code
        let s ← getStrategy h.strategy
        validateIdentifier (osAt v false).machine s h : Outcome EventType) = .throw e :=
      ⟨fun ⟨e, h, _⟩ => ⟨e, h⟩, fun ⟨e, h⟩ => ⟨e, h, hlogic e h⟩⟩
    rw [this]
    clear this hlogic
    cases ho : HwId.ofString code with
    | ub => simp
    | throw e => simp
    | ok h =>
      have hr := strategy_range h
      simp only [Outcome.ok_bind, Outcome.ok.injEq, reduceCtorEq, exists_false, false_or, exists_eq_left']
      by_cases h3 : 3 ≤ h.strategy
      · have : getStrategy h.strategy = .throw .logicError := by
          unfold getStrategy
          rw [if_neg (by omega), if_neg (by omega), if_neg (by omega), if_neg (by omega)]
        simp [this, h3]
      · obtain ⟨s, hs⟩ : ∃ s, getStrategy h.strategy = .ok s := by
          unfold getStrategy
          rcases (show h.strategy = 0 ∨ h.strategy = 1 ∨ h.strategy = 2 by omega) with h | h | h <;> simp [h]
        have hcode := (getStrategy_code _ _).mp hs
        simp only [hs, Outcome.ok_bind, h3, false_or]
        have hnd : s ≠ .default := by rintro rfl; simp [Strategy.code] at hcode; omega
        unfold validateIdentifier
        rw [if_neg hnd, if_pos hcode]
        have hpure : ∀ e, ((do
            let ids ← alternativeIds (osAt v false).machine s
            return if ids.any (fun x => x.eq h) then .licenseOk else .identifiersMismatch : Outcome EventType) = .throw e)
            ↔ payloads (osAt v false).machine s = .throw e := by
          intro e
          rw [← alternativeIds_throw_iff, Outcome.bind_eq_throw]
          simp
        rw [exists_congr hpure]
        cases s with
        | default => exact absurd rfl hnd
        | ethernet =>
          rw [hcode]
          simp [payloads, generateEthernetIds, adapters_no_throw, Strategy.code, Outcome.bind_eq_throw]
          intro e
          repeat' split
          all_goals simp
        | ip =>
          rw [hcode]
          simp [payloads, generateEthernetIds, adapters_no_throw, Strategy.code, Outcome.bind_eq_throw]
          intro e
          repeat' split
          all_goals simp
        | disk =>
          rw [hcode]
          simp only [payloads, generateDiskIds, Strategy.code, true_and]
          refine exists_congr fun e => ?_
          rw [Outcome.bind_eq_throw]
          constructor
          · rintro (h | ⟨⟨r, ds⟩, _, h⟩)
            · exact h
            · dsimp only at h
              repeat' split at h
              all_goals simp at h
          · exact .inl
  unfold validatePcSignatureP
  dsimp only
  refine (uses_andThen (o := (do
      let h ← HwId.ofString code
      let s ← getStrategy h.strategy
      validateIdentifier (osAt v false).machine s h : Outcome EventType)) hg huse
    (r := c = .logFile ∧ ∃ e, (do
      let h ← HwId.ofString code
      let s ← getStrategy h.strategy
      validateIdentifier (osAt v false).machine s h : Outcome EventType) = .throw e ∧ e.isLogicError = true) ?_).congr ?_
  · generalize (do
      let h ← HwId.ofString code
      let s ← getStrategy h.strategy
      validateIdentifier (osAt v false).machine s h : Outcome EventType) = o
    cases o with
    | ok a => exact (uses_ret _ c).congr (by simp)
    | ub => exact (uses_ret _ c).congr (by simp)
    | throw e =>
      dsimp only
      split
      · rename_i he
        exact (uses_logged hv hc _).congr (by simp [he])
      · rename_i he
        exact (uses_ret _ c).congr (by simp [he])
  · rw [hthrow]
    obtain ⟨hd1, hd2⟩ := disks_cases v.sys.disks
    unfold HardwareTrouble ListsDisks
    constructor
    · rintro (⟨h, h1, s, h2, h3⟩ | ⟨hl, h3⟩)
      · have hcode := (getStrategy_code _ _).mp h2
        rcases h3 with ⟨h3, h4, h5⟩ | ⟨h3, h4, h5, h6⟩
        · exact .inl ⟨h3, .inr ⟨h, h1, .inr (.inl ⟨by rcases h4 with rfl | rfl <;> simp [hcode, Strategy.code], h5⟩)⟩⟩
        · subst h4
          have h2' : h.strategy = 2 := hcode
          refine .inr ⟨h3, ⟨h5, (hd2 fun hu => hub hu h h1 h2').mpr h6⟩, h, h1, h2'⟩
      · refine .inl ⟨hl, ?_⟩
        rcases h3 with h3 | ⟨h, h1, h2 | h2⟩
        · exact .inl h3
        · exact .inr ⟨h, h1, .inl h2⟩
        · exact .inr ⟨h, h1, .inr (.inr h2)⟩
    · rintro (⟨hl, h3 | ⟨h, h1, h2 | ⟨h2, h3⟩ | h2⟩⟩ | ⟨hl, ⟨h1, h2⟩, h, h3, h4⟩)
      · exact .inr ⟨hl, .inl h3⟩
      · exact .inr ⟨hl, .inr ⟨h, h1, .inl h2⟩⟩
      · refine .inl ⟨h, h1, ?_⟩
        rcases h2 with h2 | h2
        · exact ⟨.ethernet, by rw [h2]; rfl, .inl ⟨hl, .inl rfl, h3⟩⟩
        · exact ⟨.ip, by rw [h2]; rfl, .inl ⟨hl, .inr rfl, h3⟩⟩
      · exact .inr ⟨hl, .inr ⟨h, h1, .inr h2⟩⟩
      · refine .inl ⟨h, h3, .disk, by rw [h4]; rfl, .inr ⟨hl, rfl, h1, (hd2 (fun hu => ?_)).mp h2⟩⟩
        exact hub hu h h3 h4

end Licensecc.Threads
