import Verif.Spec.Scarce
import Verif.Model.Scarce
import Verif.Props.Changing
import Verif.Props.Linux
/-!
# C84: when memory runs out
-/
namespace Licensecc.Scarce
open Licensecc Licensecc.Spec
open Licensecc.Changing (Keeps keeps_add refused checkExpiry_keeps checkBegin_keeps)

/-! ## Enough memory -/

/-- Memory is never refused. -/
def enough : Memory := fun _ => none

/-- With enough memory the computation ends like this. -/
def Plenty {α : Type} (x : Scarce α) (y : Outcome α) : Prop := ∀ n, (x.run enough n).1 = ended y

theorem Plenty.pure {α : Type} (a : α) : Plenty (Pure.pure a) (Pure.pure a) := fun _ => rfl

theorem Plenty.plain {α : Type} (x : Outcome α) : Plenty (Scarce.plain x) x := fun _ => rfl

theorem Plenty.step {α : Type} (x : Outcome α) : Plenty (Scarce.step x) x := fun _ => rfl

theorem run_bind {α β : Type} {x : Scarce α} {f : α → Scarce β} {m : Memory} {n n' : Nat} {e : End α} (h : x.run m n = (e, n')) :
    (x >>= f).run m n = (match e with
      | .ok a => (f a).run m n'
      | .throw e => (.throw e, n')
      | .noMemory => (.noMemory, n')
      | .ub => (.ub, n')) := by
  show (Scarce.bind x f).run m n = _
  simp only [Scarce.bind, h]
  cases e <;> rfl

theorem Plenty.bind {α β : Type} {x : Scarce α} {y : Outcome α} {f : α → Scarce β} {g : α → Outcome β} (hx : Plenty x y)
    (hf : ∀ a, Plenty (f a) (g a)) : Plenty (x >>= f) (y >>= g) := by
  intro n
  have := hx n
  cases h : x.run enough n with
  | mk e n' =>
    rw [run_bind h]
    rw [h] at this
    simp only at this
    cases y with
    | ok a => subst this; exact hf a n'
    | throw e => subst this; rfl
    | ub => subst this; rfl

theorem Plenty.need {β : Type} {f : Unit → Scarce β} {y : Outcome β} (hf : Plenty (f ()) y) : Plenty (Scarce.need >>= f) y :=
  fun n => hf (n + 1)

theorem Plenty.request {β : Type} {f : Bool → Scarce β} {y : Outcome β} (hf : Plenty (f true) y) : Plenty (Scarce.request >>= f) y :=
  fun n => hf (n + 1)

theorem Plenty.opening {β : Type} {f : Bool → Scarce β} {y : Outcome β} (hf : Plenty (f true) y) : Plenty (Scarce.opening >>= f) y :=
  fun n => hf (n + 1)

theorem Plenty.streamed {β γ : Type} {s : List γ} {f : List γ → Scarce β} {y : Outcome β} (hf : Plenty (f s) y) :
    Plenty (Scarce.streamed s >>= f) y := fun n => hf (n + 1)

theorem Plenty.pureBind {α β : Type} {a : α} {f : α → Scarce β} {y : Outcome β} (hf : Plenty (f a) y) :
    Plenty (Pure.pure a >>= f) y := fun n => hf n

theorem Plenty.after {α β : Type} {x : Scarce α} {a : α} {f : α → Scarce β} {y : Outcome β} (hx : Plenty x (.ok a)) (hf : Plenty (f a) y) :
    Plenty (x >>= f) y := by
  intro n
  have h1 := hx n
  cases h : x.run enough n with
  | mk e n' => rw [run_bind h]; rw [h] at h1; simp only at h1; subst h1; exact hf n'

theorem Plenty.stop {α β : Type} {x : Scarce α} {f : α → Scarce β} (hx : Plenty x .ub) : Plenty (x >>= f) .ub := by
  intro n
  have h1 := hx n
  cases h : x.run enough n with
  | mk e n' => rw [run_bind h]; rw [h] at h1; simp only at h1; subst h1; rfl

theorem Plenty.ite {α : Type} {c : Prop} [Decidable c] {x x' : Scarce α} {y y' : Outcome α} (h : c → Plenty x y) (h' : ¬ c → Plenty x' y') :
    Plenty (if c then x else x') (if c then y else y') := by
  split
  · exact h ‹_›
  · exact h' ‹_›

/-- The hooks do with enough memory what the world does. -/
structure Faithful (h : Hooks) : Prop where
  verify : ∀ data sig, Plenty (h.verify data sig) (h.world.verify data sig)
  adapters : Plenty h.adapters h.world.machine.adapters
  disks : Plenty h.disks h.world.machine.disks
  log : Plenty h.log (h.world.machine.logged (.ok ()))

theorem plenty_probe {w : World} {p : Bytes} : Plenty (probe w p) (.ok (w.probe p)) := fun _ => rfl

theorem plenty_filter {w : World} {extra : Bytes} {ps : List Bytes} : ∀ {r : Registry},
    Plenty (filterExistingFiles w extra r ps) (Licensecc.filterExistingFiles w extra r ps) := by
  induction ps with
  | nil => intro r; exact .pure _
  | cons p ps ih =>
    intro r
    rw [filterExistingFiles, Licensecc.filterExistingFiles]
    refine .bind (.step _) (fun r1 => .after plenty_probe ?_)
    cases w.probe p with
    | true => exact .bind (.step _) (fun r2 => .bind ih (fun _ => .pure _))
    | false => exact .bind (.step _) (fun r2 => ih)

theorem plenty_contents {w : World} {p : Bytes} {m : Nat} : Plenty (getFileContents w p m) (Licensecc.getFileContents w p m) :=
  .opening (.step _)

theorem logged_bind {α β : Type} (m : Machine) (x : Outcome α) (f : α → Outcome β) : (m.logged x >>= f) = m.logged (x >>= f) := by
  unfold Machine.logged; split <;> rfl

theorem plenty_locations {h : Hooks} (hh : Faithful h) {l : Locator} {r : Registry} :
    Plenty (licenseLocations h l r) (Licensecc.licenseLocations h.world l r) := by
  cases l with
  | applicationFolder =>
    unfold licenseLocations Licensecc.licenseLocations
    cases h.world.moduleName with
    | none =>
      have : h.world.machine.logged (.ok (r, ([] : List Bytes), false))
          = (h.world.machine.logged (.ok ()) >>= fun _ => Pure.pure (r, [], false)) := by rw [logged_bind]; rfl
      simp only
      rw [this]
      exact .bind hh.log (fun _ => .pure _)
    | some m =>
      refine .need (.after plenty_probe ?_)
      exact .ite (fun _ => .bind (.step _) (fun _ => .pure _)) (fun _ => .bind (.step _) (fun _ => .pure _))
  | environmentVarLocation =>
    unfold licenseLocations Licensecc.licenseLocations
    refine .need ?_
    rcases h.world.getenv locationVar with _ | ⟨_ | ⟨c, v⟩⟩
    · exact .bind (.step _) (fun _ => .pure _)
    · exact .bind (.step _) (fun _ => .pure _)
    · exact fun n => Plenty.bind plenty_filter (fun _ => .pure _) (n + 1 + 1)
  | environmentVarData => exact .step _
  | externalDefinition loc =>
    obtain ⟨kind, data⟩ := loc
    unfold licenseLocations Licensecc.licenseLocations
    cases data with
    | nil => exact .plain _
    | cons c d =>
      simp only
      refine .ite (fun _ => .pure _) (fun _ => .bind (.step _) (fun r1 => .ite (fun _ => ?_) (fun _ => .ite (fun _ => .step _) (fun _ => .step _))))
      exact .bind (.step _) (fun d => fun n => Plenty.bind plenty_filter (fun _ => .pure _) (n + 1 + 1))

theorem plenty_retrieve {w : World} {l : Locator} {b : Bool} {src : Bytes} :
    Plenty (retrieveContent w l b src) (Licensecc.retrieveContent w l b src) := by
  cases l with
  | applicationFolder => exact plenty_contents
  | environmentVarLocation => exact plenty_contents
  | environmentVarData => exact .step _
  | externalDefinition loc =>
    unfold retrieveContent
    simp only
    split
    · exact .step _
    · rename_i hs
      have : Licensecc.retrieveContent w (.externalDefinition loc) b src = Licensecc.getFileContents w src maxLicenseData := by
        simp only [Licensecc.retrieveContent]; rw [if_neg hs]
      rw [this]
      exact plenty_contents

theorem plenty_readLocations {w : World} {feature : Bytes} {l : Locator} {b : Bool} {locs : List Bytes} : ∀ {r : Registry},
    Plenty (readLocations w feature l b r locs) (Licensecc.readLocations w feature l b r locs) := by
  induction locs with
  | nil => intro r; exact .pure _
  | cons src locs ih =>
    intro r
    rw [readLocations, Licensecc.readLocations]
    exact .bind plenty_retrieve (fun _ => .bind (.step _) (fun _ => .bind ih (fun _ => .pure _)))

theorem plenty_readLocators {h : Hooks} (hh : Faithful h) {feature : Bytes} {ls : List Locator} : ∀ {r : Registry},
    Plenty (readLocators h feature r ls) (Licensecc.readLocators h.world feature r ls) := by
  induction ls with
  | nil => intro r; exact .pure _
  | cons l ls ih =>
    intro r
    rw [readLocators, Licensecc.readLocators]
    exact .bind (plenty_locations hh) (fun _ => .bind plenty_readLocations (fun _ => .bind ih (fun _ => .pure _)))

theorem plenty_readLicenses {cfg : Config} {h : Hooks} (hh : Faithful h) {hint : Option LicenseLocation} {feature : Bytes} :
    Plenty (readLicenses cfg h hint feature) (Licensecc.readLicenses cfg h.world hint feature) := by
  simp only [readLicenses, Licensecc.readLicenses]
  refine .need (.ite (fun _ => .bind (.step _) (fun _ => .bind (.plain _) (fun _ => .pure _))) (fun _ => ?_))
  exact .bind (plenty_readLocators hh) (fun x => .ite (fun _ => .bind (.plain _) (fun _ => .pure _)) (fun _ => .pure _))

theorem plenty_ethernet {h : Hooks} (hh : Faithful h) {b : Bool} :
    Plenty (generateEthernetIds h b) (Licensecc.generateEthernetIds h.world.machine b) := by
  unfold generateEthernetIds Licensecc.generateEthernetIds
  refine .bind hh.adapters (fun x => ?_)
  obtain ⟨r, as⟩ := x
  exact .ite (fun _ => .pure _) (fun _ => .ite (fun _ => .pure _) (fun _ => .step _))

theorem plenty_diskIds {h : Hooks} (hh : Faithful h) : Plenty (generateDiskIds h) (Licensecc.generateDiskIds h.world.machine) := by
  unfold generateDiskIds Licensecc.generateDiskIds
  refine .bind hh.disks (fun x => ?_)
  obtain ⟨r, as⟩ := x
  exact .ite (fun _ => .pure _) (fun _ => .ite (fun _ => .pure _) (fun _ => .step _))

theorem plenty_makeIds {s : Strategy} {x : FuncRet × List Payload} :
    Plenty (makeIds s x) (if x.1 = .ok then x.2.mapM (mkId s.code) else Pure.pure []) :=
  .ite (fun _ => .step _) (fun _ => .pure _)

theorem plenty_alternativeIds {h : Hooks} (hh : Faithful h) {s : Strategy} :
    Plenty (alternativeIds h s) (Licensecc.alternativeIds h.world.machine s) := by
  cases s with
  | default => exact .pure _
  | ethernet => exact .bind (plenty_ethernet hh) (fun _ => plenty_makeIds)
  | ip => exact .bind (plenty_ethernet hh) (fun _ => plenty_makeIds)
  | disk => exact .bind (plenty_diskIds hh) (fun _ => plenty_makeIds)

theorem plenty_validate {h : Hooks} (hh : Faithful h) {s : Strategy} {id : HwId} :
    Plenty (validateIdentifier h s id) (Licensecc.validateIdentifier h.world.machine s id) := by
  unfold validateIdentifier Licensecc.validateIdentifier
  refine .ite (fun _ => .pure _) (fun _ => .ite (fun _ => ?_) (fun _ => .pure _))
  exact .bind (plenty_alternativeIds hh) (fun _ => .pure _)

theorem plenty_validatePc {h : Hooks} (hh : Faithful h) {code : Bytes} :
    Plenty (validatePcSignature h code) (Licensecc.validatePcSignature h.world.machine code) := by
  have hx : Plenty (do
      let id ← step (HwId.ofString code)
      let s ← step (getStrategy id.strategy)
      validateIdentifier h s id) (do
      let h' ← HwId.ofString code
      let s ← getStrategy h'.strategy
      Licensecc.validateIdentifier h.world.machine s h') :=
    .bind (.step _) (fun _ => .bind (.step _) (fun _ => plenty_validate hh))
  intro n
  unfold validatePcSignature Licensecc.validatePcSignature catchLogic
  have := hx n
  revert this
  simp only
  generalize ((do
      let id ← step (HwId.ofString code)
      let s ← step (getStrategy id.strategy)
      validateIdentifier h s id : Scarce EventType).run enough n) = p
  generalize (do
      let h' ← HwId.ofString code
      let s ← getStrategy h'.strategy
      Licensecc.validateIdentifier h.world.machine s h' : Outcome EventType) = y
  intro hy
  obtain ⟨e, n'⟩ := p
  simp only at hy
  cases y with
  | ok a => subst hy; rfl
  | ub => subst hy; rfl
  | throw ex =>
    subst hy
    simp only [ended]
    split
    · have e2 : h.world.machine.logged (.ok EventType.identifiersMismatch)
          = (h.world.machine.logged (.ok ()) >>= fun _ => Pure.pure .identifiersMismatch) := by rw [logged_bind]; rfl
      rw [e2]
      exact Plenty.bind hh.log (fun _ => .pure _) n'
    · rfl

theorem plenty_checkClient {h : Hooks} (hh : Faithful h) {lic : FullLicense} {r : Registry} :
    Plenty (checkClient h lic r) (Licensecc.checkClient h.world lic r) := by
  unfold checkClient Licensecc.checkClient
  cases SMap.find? kClient lic.limits with
  | none => exact .pure _
  | some s => exact .bind (plenty_validatePc hh) (fun _ => .bind (.step _) (fun _ => .pure _))

theorem plenty_verifyLimits {cfg : Config} {h : Hooks} (hh : Faithful h) {lic : FullLicense} {r : Registry} {k : Nat} :
    Plenty (verifyLimits cfg h lic r k) (Licensecc.verifyLimits cfg h.world lic r k) := by
  unfold verifyLimits Licensecc.verifyLimits
  refine .ite (fun _ => .bind (.step _) (fun x => .ite (fun _ => .bind (.step _) (fun y => .ite (fun _ => ?_) (fun _ => .pure _))) (fun _ => .pure _)))
    (fun _ => .bind (.step _) (fun _ => .pure _))
  exact .bind (plenty_checkClient hh) (fun _ => .pure _)

theorem plenty_verifySignature {h : Hooks} (hh : Faithful h) {lic : FullLicense} {r : Registry} :
    Plenty (verifySignature h lic r) (Licensecc.verifySignature h.world lic r) := by
  unfold verifySignature Licensecc.verifySignature
  refine .after (a := lic.printForSign) (fun _ => rfl) ?_
  exact .bind (hh.verify _ _) (fun _ => .bind (.step _) (fun _ => .pure _))

theorem plenty_judgeLoop {cfg : Config} {h : Hooks} (hh : Faithful h) {caller : Option Caller} {ls : List FullLicense} :
    ∀ {r : Registry} {k : Nat}, Plenty (judgeLoop cfg h caller r k ls) (Licensecc.judgeLoop cfg h.world caller r k ls) := by
  induction ls with
  | nil => intro r k; exact .pure _
  | cons l ls ih =>
    intro r k
    rw [judgeLoop, Licensecc.judgeLoop]
    refine .bind (plenty_verifySignature hh) (fun x => .bind (.step _) (fun y => .ite (fun _ => ?_) (fun _ => ?_)))
    · exact .bind (plenty_verifyLimits hh) (fun _ => .need (.bind ih (fun _ => .pure _)))
    · exact .need (.bind ih (fun _ => .pure _))

theorem plenty_judge {cfg : Config} {h : Hooks} (hh : Faithful h) {caller : Option Caller} {out : Option LicInfo} {r : Registry}
    {lics : List FullLicense} : Plenty (judge cfg h caller out r lics) (Licensecc.judge cfg h.world caller out r lics) := by
  cases lics with
  | nil => exact .plain _
  | cons l ls =>
    simp only [judge, Licensecc.judge]
    refine .need (.bind (plenty_judgeLoop hh) (fun x => ?_))
    obtain ⟨r1, k, oks, errs⟩ := x
    cases oks with
    | nil => exact .bind (.plain _) (fun _ => .bind (.plain _) (fun _ => .plain _))
    | cons i is => exact .plain _

theorem plenty_acquire {cfg : Config} {h : Hooks} (hh : Faithful h) {caller : Option Caller} {hint : Option LicenseLocation}
    {out : Option LicInfo} : Plenty (acquire cfg h caller hint out) (Licensecc.acquire cfg h.world caller hint out) :=
  .bind (.step _) (fun _ => .bind (plenty_readLicenses hh) (fun _ => plenty_judge hh))

/-! ### Linux -/

theorem plenty_log (l : Linux) : Plenty (log l) (l.world.machine.logged (.ok ())) := by
  have e : l.world.machine.logged (.ok ()) = if l.logOverruns then .ub else Pure.pure () := rfl
  rw [e]
  unfold log
  refine .ite (fun _ => .plain _) (fun _ => ?_)
  split
  · exact fun _ => rfl
  · exact fun _ => rfl

theorem plenty_fail (l : Linux) : Plenty (fail (log l)) ({ l.ssl with logOverruns := l.logOverruns }.fail) := by
  have : { l.ssl with logOverruns := l.logOverruns }.fail = (l.world.machine.logged (.ok ()) >>= fun _ => Pure.pure false) := by
    rw [logged_bind]; rfl
  rw [this]
  exact .bind (plenty_log l) (fun _ => .pure _)

theorem plenty_verify (l : Linux) (data sig : Bytes) : Plenty (verify (log l) l.ssl data sig) (l.world.verify data sig) := by
  show Plenty _ ({ l.ssl with logOverruns := l.logOverruns }.verify data sig)
  have hf := plenty_fail l
  unfold OpenSsl.verify
  unfold verify
  refine .request ?_
  simp only [Bool.true_and]
  cases l.ssl.keyParses with
  | false => exact hf
  | true =>
    simp only [if_true]
    refine .request ?_
    cases hb : l.ssl.bioRead sig with
    | none =>
      refine fun n => ?_
      have : Plenty (readSignature l.ssl sig) .ub := by
        intro k
        show ((match l.ssl.bioRead sig with
          | none => plain .ub
          | some d => if signatureBuffer ≤ d.length then plain .ub else Pure.pure d : Scarce Bytes).run enough (k + 2)).1 = _
        rw [hb]; rfl
      exact Plenty.stop this n
    | some d =>
      have hr : Plenty (readSignature l.ssl sig) (if signatureBuffer ≤ d.length then .ub else Pure.pure d) := by
        intro k
        show ((match l.ssl.bioRead sig with
          | none => plain .ub
          | some d => if signatureBuffer ≤ d.length then plain .ub else Pure.pure d : Scarce Bytes).run enough (k + 2)).1 = _
        rw [hb]
        simp only
        split <;> rfl
      simp only [Bool.true_eq_false, if_false]
      by_cases hd : signatureBuffer ≤ d.length
      · rw [if_pos hd] at hr
        rw [if_pos hd]
        exact .stop hr
      · rw [if_neg hd] at hr
        rw [if_neg hd]
        refine .after hr (.request ?_)
        simp only [Bool.true_and]
        cases l.ssl.contextCreated with
        | false => exact hf
        | true =>
          simp only [if_true, Bool.true_eq_false, if_false]
          refine .request ?_
          simp only [Bool.true_and]
          cases l.ssl.digestInit with
          | false => exact hf
          | true =>
            simp only [if_true, Bool.true_eq_false, if_false]
            refine .request ?_
            simp only [Bool.true_and, decide_eq_true_eq]
            by_cases hu : l.ssl.digestUpdate data = 1
            · rw [if_pos hu, if_neg (by simp [hu])]
              refine .request ?_
              simp only [Bool.true_and, decide_eq_true_eq]
              exact .ite (fun _ => .pure _) (fun _ => hf)
            · rw [if_neg hu, if_pos hu]
              exact hf

theorem plenty_adapters (l : Linux) : Plenty (getAdapterInfos (log l) l.net) l.world.machine.adapters := by
  show Plenty _ (if l.net.ifaddrs = none ∧ l.logOverruns then .ub else .ok (Licensecc.getAdapterInfos l.net))
  unfold getAdapterInfos
  refine .request ?_
  simp only [Bool.true_and]
  cases hi : l.net.ifaddrs with
  | some x => simpa using Plenty.step _
  | none =>
    have e : (if l.net.ifaddrs = none ∧ l.logOverruns = true then Outcome.ub else .ok (Licensecc.getAdapterInfos l.net))
        = (l.world.machine.logged (.ok ()) >>= fun _ => Pure.pure (.error, [])) := by
      have e1 : Licensecc.getAdapterInfos l.net = (.error, []) := by unfold Licensecc.getAdapterInfos getAdapterInfosNamed; rw [hi]; rfl
      rw [logged_bind, e1, hi]
      show _ = if l.logOverruns then Outcome.ub else .ok _
      simp
    rw [hi] at e
    rw [e]
    simpa using Plenty.bind (plenty_log l) (fun _ => .pure _)

theorem plenty_parseUuid {u : Bytes} : Plenty (parseUuid u) (Licensecc.parseUuid u) := .request (.plain _)

theorem plenty_addUuidEntry {e : UuidEntry} {ds : List Disk} {m : UuidMap} :
    Plenty (addUuidEntry e ds m) (Licensecc.addUuidEntry e ds m) := by
  unfold addUuidEntry Licensecc.addUuidEntry
  refine .ite (fun _ => .pure _) (fun _ => .need ?_)
  cases e.inode with
  | none => exact .pure _
  | some ino =>
    cases e.link with
    | none => exact .pure _
    | some link => exact .bind plenty_parseUuid (fun _ => .step _)

theorem plenty_uuidLoop {es : List UuidEntry} : ∀ {ds : List Disk} {m : UuidMap},
    Plenty (uuidLoop es ds m) (Licensecc.uuidLoop es ds m) := by
  induction es with
  | nil => intro ds m; exact .pure _
  | cons e es ih =>
    intro ds m
    rw [uuidLoop, Licensecc.uuidLoop]
    exact .ite (fun _ => .bind plenty_addUuidEntry (fun _ => ih)) (fun _ => .pure _)

theorem plenty_openDir {β : Type} {d : Option β} : Plenty (openDir d) (.ok d) := fun _ => rfl

theorem plenty_labels {h : DiskHost} {ds : List Disk} : Plenty (readDiskLabels h ds) (.ok (Licensecc.readDiskLabels h ds)) := by
  unfold readDiskLabels Licensecc.readDiskLabels
  refine .after plenty_openDir ?_
  cases h.byLabel with
  | some es => exact .step _
  | none =>
    refine .after plenty_openDir ?_
    cases h.byPartLabel with
    | some es => exact .step _
    | none => exact .pure _

theorem plenty_dev {h : DiskHost} : Plenty (getDiskInfosDev h) (Licensecc.getDiskInfosDev h) := by
  unfold getDiskInfosDev Licensecc.getDiskInfosDev
  refine .after plenty_openDir ?_
  cases h.byUuid with
  | none => exact .after (.pure _) (.after plenty_labels (.pure _))
  | some es => exact .bind plenty_uuidLoop (fun x => .after plenty_labels (.pure _))

theorem plenty_blkidDevice {cur : Bytes} {n : Nat} : Plenty (blkidDevice cur n) (Licensecc.blkidDevice cur n) :=
  .bind (.step _) (fun _ => .bind (.step _) (fun _ => .bind plenty_parseUuid (fun _ => .bind (.step _) (fun _ => .pure _))))

theorem plenty_blkidLoop {s : Bytes} : ∀ {win : Bytes} {pos n : Nat} {ds : List Disk} {m : UuidMap},
    Plenty (blkidLoop win pos n ds m s) (Licensecc.blkidLoop win pos n ds m s) := by
  induction s with
  | nil => intros; exact .pure _
  | cons c s ih =>
    intro win pos n ds m
    rw [blkidLoop, Licensecc.blkidLoop]
    exact .ite (fun _ => .bind plenty_blkidDevice (fun _ => .need ih)) (fun _ => ih)

theorem plenty_parseBlkid {c : Bytes} {ds : List Disk} {m : UuidMap} : Plenty (parseBlkid c ds m) (Licensecc.parseBlkid c ds m) :=
  .bind plenty_blkidLoop (fun _ => .pure _)

theorem plenty_slurp {f : Option Bytes} : Plenty (slurp f) (.ok f) := by
  cases f with
  | none => exact fun _ => rfl
  | some c => exact fun _ => rfl

theorem plenty_blkid {h : DiskHost} {ds : List Disk} {m : UuidMap} :
    Plenty (getDiskInfosBlkid h ds m) (Licensecc.getDiskInfosBlkid h ds m) := by
  unfold getDiskInfosBlkid Licensecc.getDiskInfosBlkid
  refine .need (.after plenty_slurp ?_)
  cases h.blkidRun with
  | some c => exact plenty_parseBlkid
  | none =>
    refine .after plenty_slurp ?_
    cases h.blkidEtc with
    | some c => exact plenty_parseBlkid
    | none => exact .pure _

theorem plenty_preferred {h : DiskHost} {ds : List Disk} {m : UuidMap} :
    Plenty (setPreferredDisks h ds m) (Licensecc.setPreferredDisks h ds m) := by
  unfold setPreferredDisks Licensecc.setPreferredDisks
  refine .after plenty_openDir ?_
  cases h.fstab with
  | none => exact .pure _
  | some es => exact .request (.step _)

theorem plenty_disks {h : DiskHost} : Plenty (getDiskInfos h) (Licensecc.getDiskInfos h) := by
  unfold getDiskInfos Licensecc.getDiskInfos
  refine .bind plenty_dev (fun x => .ite (fun _ => .bind plenty_blkid (fun y => ?_)) (fun _ => .bind (.pure _) (fun y => ?_)))
  all_goals exact .ite (fun _ => .bind plenty_preferred (fun _ => .pure _)) (fun _ => .pure _)

theorem faithful_linux (l : Linux) : Faithful (linuxHooks l) :=
  ⟨plenty_verify l, plenty_adapters l, plenty_disks, plenty_log l⟩

theorem plenty_dmiText {x : Outcome Bytes} (hx : ∀ e, x ≠ .throw e) : Plenty (dmiText x) x := by
  intro n
  cases x with
  | ok t => rfl
  | ub => rfl
  | throw e => exact absurd rfl (hx e)

theorem plenty_dmi {h : Host} : Plenty (dmiInfo h) (Licensecc.dmiInfo h) := by
  unfold dmiInfo Licensecc.dmiInfo
  refine .after (plenty_dmiText (fun e h => by cases h)) (.bind (plenty_dmiText ?_) (fun _ => .bind (plenty_dmiText ?_) (fun _ => .pure _)))
  · intro e
    unfold dmiDescription
    cases h.modalias with
    | none => exact fun h => by cases h
    | some c => simp only; split <;> exact fun h => by cases h
  · intro e
    unfold dmiSysVendor
    cases h.sysVendor with
    | none => exact fun h => by cases h
    | some c => simp only; split <;> exact fun h => by cases h

theorem plenty_containerType {h : Host} : Plenty (containerType h) (.ok (Licensecc.containerType h)) := by
  have h1 : Plenty (checkContainerProc h) (.ok (Licensecc.checkContainerProc h)) := by
    unfold checkContainerProc Licensecc.checkContainerProc
    refine .after plenty_openDir ?_
    cases h.cgroup with
    | none => exact .pure _
    | some s => exact fun _ => rfl
  have h2 : Plenty (checkSystemdContainer h) (.ok (Licensecc.checkSystemdContainer h)) := by
    unfold checkSystemdContainer Licensecc.checkSystemdContainer
    refine .opening ?_
    cases h.systemdContainer with
    | none => exact .pure _
    | some s => exact fun _ => rfl
  unfold containerType Licensecc.containerType
  refine .after h1 ?_
  simp only
  split
  · exact h2
  · exact .pure _

theorem plenty_mkEnv {h : Host} : Plenty (mkEnv h) (Licensecc.mkEnv h) :=
  .need (.bind plenty_dmi (fun _ => .after plenty_containerType (.pure _)))

theorem plenty_exec (l : Linux) : Plenty (exec (linuxHooks l)) l.world.machine.exec :=
  .bind plenty_mkEnv (fun _ => .step _)

theorem plenty_generateFirst {h : Hooks} (hh : Faithful h) {s : Strategy} :
    Plenty (generateFirst h s) (Licensecc.generateFirst h.world.machine s) :=
  .bind (plenty_alternativeIds hh) (fun _ => .pure _)

theorem plenty_tryStrategies {h : Hooks} (hh : Faithful h) {ns : List Int} :
    Plenty (tryStrategies h ns) (Licensecc.tryStrategies h.world.machine ns) := by
  induction ns with
  | nil => exact .pure _
  | cons n ns ih =>
    rw [tryStrategies, Licensecc.tryStrategies]
    refine .bind (.step _) (fun s => .bind (plenty_generateFirst hh) (fun o => ?_))
    cases o with
    | some i => exact .pure _
    | none => exact ih

theorem plenty_generatePcId {h : Hooks} (hh : Faithful h) (he : Plenty (exec h) h.world.machine.exec) {s : Strategy} :
    Plenty (generatePcId h s) (Licensecc.generatePcId h.world.machine s) := by
  cases s with
  | default => exact .bind he (fun _ => plenty_tryStrategies hh)
  | ethernet => exact plenty_generateFirst hh
  | ip => exact plenty_generateFirst hh
  | disk => exact plenty_generateFirst hh

theorem plenty_signature {h : Hooks} (hh : Faithful h) (he : Plenty (exec h) h.world.machine.exec) {n : Int} :
    Plenty (generateUserPcSignature h n) (Licensecc.generateUserPcSignature h.world.machine n) := by
  unfold generateUserPcSignature Licensecc.generateUserPcSignature
  refine .bind ?_ (fun _ => .bind (.step _) (fun s => .bind (plenty_generatePcId hh he) (fun o => ?_)))
  · show Plenty (if strategyUnknown h.world.machine.strategyVar n then h.log else Pure.pure ())
      (if strategyUnknown h.world.machine.strategyVar n then h.world.machine.logged (.ok ()) else .ok ())
    exact .ite (fun _ => hh.log) (fun _ => .pure _)
  · cases o with
    | none => exact .step _
    | some i => exact .step _

theorem mstrlcpyLoop_no_throw : ∀ (n : Nat) (d s : Bytes) (e : Exn), mstrlcpyLoop n d s ≠ .throw e := by
  intro n
  induction n with
  | zero => intro d s e; cases d <;> simp [mstrlcpyLoop]
  | succ n ih =>
    intro d s e
    cases d with
    | nil => simp [mstrlcpyLoop]
    | cons a d =>
      cases s with
      | nil => simp [mstrlcpyLoop]
      | cons b s =>
        rw [mstrlcpyLoop]
        split
        · simp
        · cases hr : mstrlcpyLoop n d s with
          | ok x => simp
          | ub => simp
          | throw e' => exact absurd hr (ih d s e')

theorem mstrlcpy_no_throw (d s : Bytes) (n : Nat) (e : Exn) : mstrlcpy d s n ≠ .throw e := by
  cases n with
  | zero => simp [mstrlcpy]
  | succ n =>
    rw [mstrlcpy]
    cases hr : mstrlcpyLoop n d s with
    | ok x => simp
    | ub => simp
    | throw e' => exact absurd hr (mstrlcpyLoop_no_throw _ _ _ _)

theorem plenty_identifyPc {h : Hooks} (hh : Faithful h) (he : Plenty (exec h) h.world.machine.exec) {n : Int} {buf : Option Bytes} {size : Nat} :
    Plenty (identifyPc h n buf size) (Licensecc.identifyPc h.world.machine n buf size) := by
  unfold identifyPc Licensecc.identifyPc
  cases buf with
  | none => exact .pure _
  | some mem =>
    simp only
    refine .ite (fun _ => ?_) (fun _ => .pure _)
    intro k
    have := plenty_signature hh he (n := n) k
    unfold catchAll
    cases hr : (generateUserPcSignature h n).run enough k with
    | mk e k' =>
      rw [hr] at this
      simp only at this
      simp only
      rw [run_bind hr]
      cases hg : Licensecc.generateUserPcSignature h.world.machine n with
      | ub => rw [hg] at this; subst this; rfl
      | throw ex =>
        rw [hg] at this
        subst this
        have e2 : h.world.machine.logged (.ok (⟨false, size, some mem⟩ : IdentifyResult))
            = (h.world.machine.logged (.ok ()) >>= fun _ => Pure.pure ⟨false, size, some mem⟩) := by rw [logged_bind]; rfl
        simp only [ended]
        rw [e2]
        exact Plenty.bind (hh.log) (fun _ => .pure _) k'
      | ok id =>
        rw [hg] at this
        subst this
        simp only [ended]
        cases hm : mstrlcpy mem (id ++ [0]) size with
        | ok x => rfl
        | ub => rfl
        | throw ex => exact absurd hm (mstrlcpy_no_throw _ _ _ _)

/-- With enough memory `identify_pc` is the function of the first model. -/
theorem plenty_identify {h : Hooks} (hh : Faithful h) (he : Plenty (exec h) h.world.machine.exec) {mk : Outcome Env} (hm : Plenty h.env mk)
    {cache : Option Env} {strategy : Int} {buf : Option Bytes} {size : Nat} {info : Bool} :
    Plenty (identify h cache strategy buf size info) (do
      let r ← Licensecc.identifyPc h.world.machine strategy buf size
      let e ← match cache with
        | some e => Outcome.ok e
        | none => mk
      .ok (r, if info then some ⟨cloudProvider e, virtualization h.host e, virtualizationDetail h.host e⟩ else none, some e)) := by
  refine Plenty.bind (plenty_identifyPc hh he) (fun r => ?_)
  cases cache with
  | some e => refine .bind (.pure _) (fun e => ?_); cases info with
    | true => exact .step _
    | false => exact .pure _
  | none => refine .bind hm (fun e => ?_); cases info with
    | true => exact .step _
    | false => exact .pure _

/-- With enough memory `acquire_license` and `identify_pc` are the functions of the first model. -/
theorem C84_enough (cfg : Config) (l : Linux) (n : Nat) :
    (∀ caller hint out, ((acquire cfg (linuxHooks l) caller hint out).run enough n).1 = ended (Licensecc.acquire cfg l.world caller hint out))
      ∧ (∀ cache strategy buf size info, ((identify (linuxHooks l) cache strategy buf size info).run enough n).1
          = ended (identifyPcEnv l.world.machine l.host cache strategy buf size info)) := by
  exact ⟨fun caller hint out => plenty_acquire (faithful_linux l) n, fun cache strategy buf size info => by
    rw [plenty_identify (faithful_linux l) (plenty_exec l) plenty_mkEnv n]
    rfl⟩

/-! ## Whatever memory there is -/

/-- With this memory the computation may end with that value. -/
def Gives (m : Memory) {α : Type} (x : Scarce α) (a : α) : Prop := ∃ n n', x.run m n = (.ok a, n')

theorem gives_bind {m : Memory} {α β : Type} {x : Scarce α} {f : α → Scarce β} {b : β} (h : Gives m (x >>= f) b) :
    ∃ a, Gives m x a ∧ Gives m (f a) b := by
  obtain ⟨n, n', h⟩ := h
  cases hx : x.run m n with
  | mk e k =>
    rw [run_bind hx] at h
    cases e with
    | ok a => exact ⟨a, ⟨n, k, hx⟩, k, n', h⟩
    | throw e => simp at h
    | noMemory => simp at h
    | ub => simp at h

theorem gives_pure {m : Memory} {α : Type} {a b : α} (h : Gives m (pure a) b) : a = b := by
  obtain ⟨n, n', h⟩ := h
  have : (End.ok a, n) = (End.ok b, n') := h
  simpa using congrArg Prod.fst this

theorem gives_plain {m : Memory} {α : Type} {x : Outcome α} {a : α} (h : Gives m (plain x) a) : x = .ok a := by
  obtain ⟨n, n', h⟩ := h
  have : (ended x, n) = (End.ok a, n') := h
  have := congrArg Prod.fst this
  cases x with
  | ok b => simpa [ended] using this
  | throw e => simp [ended] at this
  | ub => simp [ended] at this

theorem gives_need {m : Memory} {β : Type} {f : Unit → Scarce β} {b : β} (h : Gives m (need >>= f) b) : Gives m (f ()) b := by
  obtain ⟨_, _, h⟩ := gives_bind h
  exact h

theorem gives_step {m : Memory} {α : Type} {x : Outcome α} {a : α} (h : Gives m (step x) a) : x = .ok a :=
  gives_plain (gives_need h)

theorem gives_pureBind {m : Memory} {α β : Type} {a : α} {f : α → Scarce β} {b : β} (h : Gives m (pure a >>= f) b) : Gives m (f a) b := by
  obtain ⟨_, h1, h⟩ := gives_bind h
  rw [gives_pure h1]; exact h

theorem gives_stepBind {m : Memory} {α β : Type} {x : Outcome α} {f : α → Scarce β} {b : β} (h : Gives m (step x >>= f) b) :
    ∃ a, x = .ok a ∧ Gives m (f a) b := by
  obtain ⟨a, h1, h⟩ := gives_bind h
  exact ⟨a, gives_step h1, h⟩

theorem gives_plainBind {m : Memory} {α β : Type} {x : Outcome α} {f : α → Scarce β} {b : β} (h : Gives m (plain x >>= f) b) :
    ∃ a, x = .ok a ∧ Gives m (f a) b := by
  obtain ⟨a, h1, h⟩ := gives_bind h
  exact ⟨a, gives_plain h1, h⟩

theorem gives_streamed {m : Memory} {β : Type} {s t : List β} (h : Gives m (streamed s) t) : t <+: s := by
  obtain ⟨n, n', h⟩ := h
  have h' : (End.ok (match m n with
    | none => s
    | some k => s.take k), n + 1) = (End.ok t, n') := h
  have := congrArg Prod.fst h'
  simp only [End.ok.injEq] at this
  subst this
  cases m n with
  | none => exact List.prefix_refl _
  | some k => exact List.take_prefix k s

/-- The computation gives this value or none. -/
def Only {α : Type} (x : Scarce α) (y : Outcome α) : Prop := ∀ m a, Gives m x a → y = .ok a

theorem Only.pure {α : Type} (a : α) : Only (Pure.pure a) (Pure.pure a) := fun _ _ h => by rw [gives_pure h]; rfl

theorem Only.plain {α : Type} (x : Outcome α) : Only (Scarce.plain x) x := fun _ _ h => gives_plain h

theorem Only.step {α : Type} (x : Outcome α) : Only (Scarce.step x) x := fun _ _ h => gives_step h

theorem Only.need {β : Type} {f : Unit → Scarce β} {y : Outcome β} (h : Only (f ()) y) : Only (Scarce.need >>= f) y :=
  fun m a h' => h m a (gives_need h')

theorem Only.request {β : Type} {f : Bool → Scarce β} {y : Outcome β} (h : ∀ b, Only (f b) y) : Only (Scarce.request >>= f) y :=
  fun m a h' => by obtain ⟨b, _, h'⟩ := gives_bind h'; exact h b m a h'

theorem Only.bind {α β : Type} {x : Scarce α} {y : Outcome α} {f : α → Scarce β} {g : α → Outcome β} (hx : Only x y)
    (hf : ∀ a, Only (f a) (g a)) : Only (x >>= f) (y >>= g) := by
  intro m b h
  obtain ⟨a, h1, h2⟩ := gives_bind h
  rw [hx m a h1]
  exact hf a m b h2

theorem Only.ite {α : Type} {c : Prop} [Decidable c] {x x' : Scarce α} {y y' : Outcome α} (h : c → Only x y) (h' : ¬ c → Only x' y') :
    Only (if c then x else x') (if c then y else y') := by
  split
  · exact h ‹_›
  · exact h' ‹_›

/-! ### Disks -/

theorem only_parseUuid {u : Bytes} : Only (parseUuid u) (Licensecc.parseUuid u) := by
  refine .request (fun b => ?_)
  cases b with
  | true => exact .plain _
  | false => exact fun m a h => by have := gives_plain h; simp at this

theorem only_addUuidEntry {e : UuidEntry} {ds : List Disk} {m : UuidMap} : Only (addUuidEntry e ds m) (Licensecc.addUuidEntry e ds m) := by
  unfold addUuidEntry Licensecc.addUuidEntry
  refine .ite (fun _ => .pure _) (fun _ => .need ?_)
  cases e.inode with
  | none => exact .pure _
  | some ino =>
    cases e.link with
    | none => exact .pure _
    | some link => exact .bind only_parseUuid (fun _ => .step _)

theorem only_uuidLoop {es : List UuidEntry} : ∀ {ds : List Disk} {m : UuidMap}, Only (uuidLoop es ds m) (Licensecc.uuidLoop es ds m) := by
  induction es with
  | nil => intro ds m; exact .pure _
  | cons e es ih =>
    intro ds m
    rw [uuidLoop, Licensecc.uuidLoop]
    exact .ite (fun _ => .bind only_addUuidEntry (fun _ => ih)) (fun _ => .pure _)

theorem only_blkidDevice {cur : Bytes} {n : Nat} : Only (blkidDevice cur n) (Licensecc.blkidDevice cur n) :=
  .bind (.step _) (fun _ => .bind (.step _) (fun _ => .bind only_parseUuid (fun _ => .bind (.step _) (fun _ => .pure _))))

theorem only_blkidLoop {s : Bytes} : ∀ {win : Bytes} {pos n : Nat} {ds : List Disk} {m : UuidMap},
    Only (blkidLoop win pos n ds m s) (Licensecc.blkidLoop win pos n ds m s) := by
  induction s with
  | nil => intros; exact .pure _
  | cons c s ih =>
    intro win pos n ds m
    rw [blkidLoop, Licensecc.blkidLoop]
    exact .ite (fun _ => .bind only_blkidDevice (fun _ => .need ih)) (fun _ => ih)

theorem only_parseBlkid {c : Bytes} {ds : List Disk} {m : UuidMap} : Only (parseBlkid c ds m) (Licensecc.parseBlkid c ds m) :=
  .bind only_blkidLoop (fun _ => .pure _)

theorem gives_openDir {m : Memory} {β : Type} {d d' : Option β} (h : Gives m (openDir d) d') : d' = d ∨ d' = none := by
  obtain ⟨b, _, h⟩ := gives_bind h
  have := gives_pure h
  cases b with
  | true => exact .inl (by simpa using this.symm)
  | false => exact .inr (by simpa using this.symm)

theorem gives_slurp {m : Memory} {f f' : Option Bytes} (h : Gives m (slurp f) f') : TextLess f f' := by
  obtain ⟨b, _, h⟩ := gives_bind h
  cases b with
  | false => exact .inl (gives_pure h).symm
  | true =>
    cases f with
    | none => exact .inl (gives_pure h).symm
    | some c =>
      obtain ⟨t, h1, h⟩ := gives_bind (show Gives m (streamed c >>= fun t => pure (some t)) f' from h)
      exact .inr ⟨c, t, rfl, gives_streamed h1, (gives_pure h).symm⟩

theorem textLess_refl (f : Option Bytes) : TextLess f f := by
  cases f with
  | none => exact .inl rfl
  | some c => exact .inr ⟨c, c, rfl, List.prefix_refl _, rfl⟩

theorem gives_labels {m : Memory} {h : DiskHost} {ds ds' : List Disk} (g : Gives m (readDiskLabels h ds) ds') :
    ∃ bl bp, (bl = h.byLabel ∨ bl = none) ∧ (bp = h.byPartLabel ∨ bp = none)
      ∧ ∀ h' : DiskHost, h'.byLabel = bl → h'.byPartLabel = bp → Licensecc.readDiskLabels h' ds = ds' := by
  obtain ⟨bl, g1, g⟩ := gives_bind g
  have e1 := gives_openDir g1
  cases bl with
  | some es =>
    have := gives_step g
    simp only [Outcome.ok.injEq] at this
    exact ⟨some es, none, e1, .inr rfl, fun h' hl hp => by unfold Licensecc.readDiskLabels; rw [hl]; exact this⟩
  | none =>
    obtain ⟨bp, g2, g⟩ := gives_bind (show Gives m (openDir h.byPartLabel >>= fun x => match x with
      | some es => step (.ok (labelLoop es ds))
      | none => return ds) ds' from g)
    have e2 := gives_openDir g2
    cases bp with
    | some es =>
      have := gives_step g
      simp only [Outcome.ok.injEq] at this
      exact ⟨none, some es, e1, e2, fun h' hl hp => by unfold Licensecc.readDiskLabels; rw [hl, hp]; exact this⟩
    | none =>
      have := gives_pure g
      exact ⟨none, none, e1, e2, fun h' hl hp => by unfold Licensecc.readDiskLabels; rw [hl, hp]; exact this⟩

theorem gives_dev {m : Memory} {h : DiskHost} {x : FuncRet × List Disk × UuidMap} (g : Gives m (getDiskInfosDev h) x) :
    ∃ bu bl bp, (bu = h.byUuid ∨ bu = none) ∧ (bl = h.byLabel ∨ bl = none) ∧ (bp = h.byPartLabel ∨ bp = none)
      ∧ ∀ h' : DiskHost, h'.byUuid = bu → h'.byLabel = bl → h'.byPartLabel = bp → Licensecc.getDiskInfosDev h' = .ok x := by
  obtain ⟨bu, g1, g⟩ := gives_bind g
  have e1 := gives_openDir g1
  have key : ∀ {ds : List Disk} {mp : UuidMap}, Gives m (do
      let labelled ← readDiskLabels h ds
      return (if ds.length > 0 then FuncRet.ok else .notAvail, labelled, mp)) x →
      ∃ bl bp, (bl = h.byLabel ∨ bl = none) ∧ (bp = h.byPartLabel ∨ bp = none) ∧ ∀ h' : DiskHost, h'.byLabel = bl → h'.byPartLabel = bp →
        (if ds.length > 0 then FuncRet.ok else .notAvail, Licensecc.readDiskLabels h' ds, mp) = x := by
    intro ds mp g
    obtain ⟨ds', g2, g⟩ := gives_bind g
    obtain ⟨bl, bp, a1, a2, a3⟩ := gives_labels g2
    refine ⟨bl, bp, a1, a2, fun h' hl hp => ?_⟩
    rw [a3 h' hl hp]
    exact gives_pure g
  cases bu with
  | none =>
    obtain ⟨bl, bp, a1, a2, a3⟩ := key (gives_pureBind (a := (([], []) : List Disk × UuidMap)) g)
    refine ⟨none, bl, bp, e1, a1, a2, fun h' hu hl hp => ?_⟩
    rw [← a3 h' hl hp]
    unfold Licensecc.getDiskInfosDev
    rw [hu]
    rfl
  | some es =>
    obtain ⟨⟨ds, mp⟩, g2, g⟩ := gives_bind (x := uuidLoop es [] []) g
    obtain ⟨bl, bp, a1, a2, a3⟩ := key g
    refine ⟨some es, bl, bp, e1, a1, a2, fun h' hu hl hp => ?_⟩
    rw [← a3 h' hl hp]
    unfold Licensecc.getDiskInfosDev
    rw [hu]
    simp only
    rw [only_uuidLoop _ _ g2]
    rfl

theorem gives_blkid {m : Memory} {h : DiskHost} {ds : List Disk} {mp : UuidMap} {x : FuncRet × List Disk × UuidMap}
    (g : Gives m (getDiskInfosBlkid h ds mp) x) :
    ∃ br be, TextLess h.blkidRun br ∧ TextLess h.blkidEtc be
      ∧ ∀ h' : DiskHost, h'.blkidRun = br → h'.blkidEtc = be → Licensecc.getDiskInfosBlkid h' ds mp = .ok x := by
  replace g := gives_need g
  obtain ⟨br, g1, g⟩ := gives_bind g
  have e1 := gives_slurp g1
  cases br with
  | some c =>
    refine ⟨some c, none, e1, .inl rfl, fun h' hr he => ?_⟩
    unfold Licensecc.getDiskInfosBlkid
    rw [hr]
    exact only_parseBlkid _ _ g
  | none =>
    obtain ⟨be, g2, g⟩ := gives_bind (x := slurp h.blkidEtc) g
    have e2 := gives_slurp g2
    cases be with
    | some c =>
      refine ⟨none, some c, e1, e2, fun h' hr he => ?_⟩
      unfold Licensecc.getDiskInfosBlkid
      rw [hr, he]
      exact only_parseBlkid _ _ g
    | none =>
      refine ⟨none, none, e1, e2, fun h' hr he => ?_⟩
      unfold Licensecc.getDiskInfosBlkid
      rw [hr, he]
      exact congrArg Outcome.ok (gives_pure g)

theorem gives_preferred {m : Memory} {h : DiskHost} {ds ds' : List Disk} {mp : UuidMap} (g : Gives m (setPreferredDisks h ds mp) ds') :
    ∃ fs, (fs = h.fstab ∨ fs = none) ∧ ∀ h' : DiskHost, h'.fstab = fs → Licensecc.setPreferredDisks h' ds mp = .ok ds' := by
  obtain ⟨fs, g1, g⟩ := gives_bind g
  have e1 := gives_openDir g1
  cases fs with
  | none =>
    refine ⟨none, e1, fun h' hf => ?_⟩
    unfold Licensecc.setPreferredDisks
    rw [hf]
    exact congrArg Outcome.ok (gives_pure g)
  | some es =>
    obtain ⟨b, _, g⟩ := gives_bind (x := request) g
    cases b with
    | true =>
      refine ⟨some es, e1, fun h' hf => ?_⟩
      unfold Licensecc.setPreferredDisks
      rw [hf]
      exact gives_step g
    | false =>
      refine ⟨none, .inr rfl, fun h' hf => ?_⟩
      unfold Licensecc.setPreferredDisks
      rw [hf]
      exact congrArg Outcome.ok (gives_pure g)

/-- What is found of the disks is what an ordinary search finds where less is there. -/
theorem gives_disks {m : Memory} {h : DiskHost} {x : FuncRet × List Disk} (g : Gives m (getDiskInfos h) x) :
    ∃ h', DisksLess h h' ∧ Licensecc.getDiskInfos h' = .ok x := by
  obtain ⟨⟨r, ds, mp⟩, g1, g⟩ := gives_bind g
  obtain ⟨bu, bl, bp, a1, a2, a3, a4⟩ := gives_dev g1
  have fin : ∀ {r : FuncRet} {ds : List Disk} {mp : UuidMap}, Gives m (if r = .ok then do
      let ds ← setPreferredDisks h ds mp
      return (r, ds)
    else return (r, ds)) x → ∃ fs, (fs = h.fstab ∨ fs = none) ∧ ∀ h' : DiskHost, h'.fstab = fs →
      (if r = .ok then do
        let ds' ← Licensecc.setPreferredDisks h' ds mp
        Pure.pure (r, ds')
      else Pure.pure (r, ds)) = Outcome.ok x := by
    intro r ds mp g
    split at g
    · rename_i hr
      obtain ⟨ds', g2, g⟩ := gives_bind g
      obtain ⟨fs, b1, b2⟩ := gives_preferred g2
      refine ⟨fs, b1, fun h' hf => ?_⟩
      rw [if_pos hr, b2 h' hf, ← gives_pure g]
      rfl
    · rename_i hr
      exact ⟨none, .inr rfl, fun h' hf => by rw [if_neg hr]; exact congrArg Outcome.ok (gives_pure g)⟩
  simp only at g
  by_cases hr : r ≠ .ok
  · rw [if_pos hr] at g
    obtain ⟨⟨r', ds', mp'⟩, g2, g⟩ := gives_bind g
    obtain ⟨br, be, b1, b2, b3⟩ := gives_blkid g2
    obtain ⟨fs, c1, c2⟩ := fin g
    let h' : DiskHost := { byUuid := bu, byLabel := bl, byPartLabel := bp, blkidRun := br, blkidEtc := be, fstab := fs }
    refine ⟨h', ⟨a1, a2, a3, b1, b2, c1⟩, ?_⟩
    unfold Licensecc.getDiskInfos
    rw [a4 h' rfl rfl rfl]
    show (if r ≠ .ok then _ else _) = _
    rw [if_pos hr, b3 h' rfl rfl]
    exact c2 h' rfl
  · rw [if_neg hr] at g
    obtain ⟨fs, c1, c2⟩ := fin (gives_pureBind (a := (r, ds, mp)) g)
    let h' : DiskHost := { h with byUuid := bu, byLabel := bl, byPartLabel := bp, fstab := fs }
    refine ⟨h', ⟨a1, a2, a3, textLess_refl _, textLess_refl _, c1⟩, ?_⟩
    unfold Licensecc.getDiskInfos
    rw [a4 h' rfl rfl rfl]
    show (if r ≠ .ok then _ else _) = _
    rw [if_neg hr]
    exact c2 h' rfl

/-! ### The machine -/

theorem gives_adapters {m : Memory} {l : Linux} {x : FuncRet × List Adapter} (g : Gives m (getAdapterInfos (log l) l.net) x) :
    x = (.error, []) ∨ l.world.machine.adapters = .ok x := by
  obtain ⟨b, _, g⟩ := gives_bind g
  split at g
  · rename_i hb
    right
    have := gives_step g
    show (if l.net.ifaddrs = none ∧ l.logOverruns then Outcome.ub else Outcome.ok (Licensecc.getAdapterInfos l.net)) = _
    simp only [Bool.and_eq_true] at hb
    rw [if_neg (by intro hc; rw [hc.1] at hb; simp at hb)]
    exact this
  · left
    obtain ⟨_, _, g⟩ := gives_bind g
    exact (gives_pure g).symm

theorem gives_makeIds {m : Memory} {s : Strategy} {x : FuncRet × List Payload} {ids : List HwId} (g : Gives m (makeIds s x) ids) :
    (if x.1 = .ok then x.2.mapM (mkId s.code) else Pure.pure []) = Outcome.ok ids := by
  unfold makeIds at g
  split at g
  · rename_i h; rw [if_pos h]; exact gives_step g
  · rename_i h; rw [if_neg h]; exact congrArg Outcome.ok (gives_pure g)

theorem gives_ethernet {m : Memory} {l : Linux} {b : Bool} {x : FuncRet × List Payload}
    (g : Gives m (generateEthernetIds (linuxHooks l) b) x) :
    x.1 ≠ .ok ∨ Licensecc.generateEthernetIds l.world.machine b = .ok x := by
  obtain ⟨⟨r, as⟩, g1, g⟩ := gives_bind g
  rcases gives_adapters g1 with h | h
  · simp only [Prod.mk.injEq] at h
    obtain ⟨rfl, rfl⟩ := h
    left
    rw [← gives_pure g]; simp
  · right
    unfold Licensecc.generateEthernetIds
    rw [h]
    show (if r ≠ .ok then _ else _) = _
    simp only at g
    split at g
    · rename_i hr; rw [if_pos hr]; exact congrArg Outcome.ok (gives_pure g)
    · rename_i hr
      rw [if_neg hr]
      split at g
      · rename_i hl; rw [if_pos hl]; exact congrArg Outcome.ok (gives_pure g)
      · rename_i hl; rw [if_neg hl]; exact gives_step g

theorem gives_diskIds {m : Memory} {l : Linux} {x : FuncRet × List Payload} (g : Gives m (generateDiskIds (linuxHooks l)) x) :
    ∃ d, DisksLess l.disks d ∧ Licensecc.generateDiskIds { l with disks := d }.world.machine = .ok x := by
  obtain ⟨⟨r, ds⟩, g1, g⟩ := gives_bind g
  obtain ⟨d, hd, he⟩ := gives_disks g1
  refine ⟨d, hd, ?_⟩
  unfold Licensecc.generateDiskIds
  have : { l with disks := d }.world.machine.disks = .ok (r, ds) := he
  rw [this]
  show (if r ≠ .ok then _ else _) = _
  simp only at g
  split at g
  · rename_i hr; rw [if_pos hr]; exact congrArg Outcome.ok (gives_pure g)
  · rename_i hr
    rw [if_neg hr]
    simp only
    split at g
    · rename_i hl; rw [if_pos hl]; exact congrArg Outcome.ok (gives_pure g)
    · rename_i hl; rw [if_neg hl]; exact gives_step g

theorem disksLess_refl (h : DiskHost) : DisksLess h h :=
  ⟨.inl rfl, .inl rfl, .inl rfl, textLess_refl _, textLess_refl _, .inl rfl⟩

/-- The identifiers found are none, or those of a machine where less of the disks is there. -/
theorem gives_ids {m : Memory} {l : Linux} {s : Strategy} {ids : List HwId} (g : Gives m (alternativeIds (linuxHooks l) s) ids) :
    ids = [] ∨ ∃ d, DisksLess l.disks d ∧ Licensecc.alternativeIds { l with disks := d }.world.machine s = .ok ids := by
  have eth : ∀ {s : Strategy} {b : Bool}, Gives m (generateEthernetIds (linuxHooks l) b >>= makeIds s) ids →
      ids = [] ∨ ∃ x, Licensecc.generateEthernetIds l.world.machine b = .ok x
        ∧ (if x.1 = .ok then x.2.mapM (mkId s.code) else Pure.pure []) = Outcome.ok ids := by
    intro s b g
    obtain ⟨x, g1, g⟩ := gives_bind g
    have g2 := gives_makeIds g
    rcases gives_ethernet g1 with h | h
    · left
      rw [if_neg h] at g2
      simpa using g2.symm
    · exact .inr ⟨x, h, g2⟩
  cases s with
  | default => left; exact (gives_pure g).symm
  | ethernet =>
    rcases eth g with h | ⟨x, h1, h2⟩
    · exact .inl h
    · right
      refine ⟨l.disks, disksLess_refl _, ?_⟩
      show (Licensecc.generateEthernetIds l.world.machine false >>= fun x => if x.1 = .ok then x.2.mapM (mkId Strategy.ethernet.code) else Pure.pure []) = _
      rw [h1]; exact h2
  | ip =>
    rcases eth g with h | ⟨x, h1, h2⟩
    · exact .inl h
    · right
      refine ⟨l.disks, disksLess_refl _, ?_⟩
      show (Licensecc.generateEthernetIds l.world.machine true >>= fun x => if x.1 = .ok then x.2.mapM (mkId Strategy.ip.code) else Pure.pure []) = _
      rw [h1]; exact h2
  | disk =>
    obtain ⟨x, g1, g⟩ := gives_bind g
    have g2 := gives_makeIds g
    obtain ⟨d, hd, he⟩ := gives_diskIds g1
    right
    refine ⟨d, hd, ?_⟩
    show (Licensecc.generateDiskIds _ >>= fun x => if x.1 = .ok then x.2.mapM (mkId Strategy.disk.code) else Pure.pure []) = _
    rw [he]; exact g2

theorem gives_catchLogic {m : Memory} {α : Type} {x y : Scarce α} {a : α} (g : Gives m (catchLogic x y) a) : Gives m x a ∨ Gives m y a := by
  obtain ⟨n, n', g⟩ := g
  unfold catchLogic at g
  simp only at g
  cases hx : x.run m n with
  | mk e k =>
    rw [hx] at g
    cases e with
    | ok b => exact .inl ⟨n, k, by rw [hx]; simp only at g; rw [← (Prod.mk.inj g).1]⟩
    | throw ex =>
      simp only at g
      split at g
      · exact .inr ⟨k, n', g⟩
      · simp at g
    | noMemory => simp at g
    | ub => simp at g

/-- What the hardware identification sees is at most something of what `near` allows; and logging neither throws nor passes
    `std::bad_alloc` on. -/
structure Sees (h : Hooks) (near : Machine → Prop) : Prop where
  some : ∃ d, near d
  ids : ∀ m s ids, Gives m (alternativeIds h s) ids → ids = [] ∨ ∃ d, near d ∧ Licensecc.alternativeIds d s = .ok ids
  log : ∀ m n, ∃ n', h.log.run m n = (.ok (), n') ∨ h.log.run m n = (.ub, n')

/-- An accepted identifier is one of such a machine. -/
theorem gives_validatePc {m : Memory} {h : Hooks} {near : Machine → Prop} (hs : Sees h near) {code : Bytes} (g : Gives m (validatePcSignature h code) .licenseOk) :
    ∃ d, near d ∧ ∃ x, HwId.ofString code = .ok x ∧ HwMatches d x := by
  rcases gives_catchLogic g with g | g
  · obtain ⟨id, h1, g⟩ := gives_stepBind g
    obtain ⟨s, h2, g⟩ := gives_stepBind g
    have key : ∃ d, near d ∧ Licensecc.validateIdentifier d s id = .ok .licenseOk := by
      unfold validateIdentifier at g
      unfold Licensecc.validateIdentifier
      split at g
      · have := gives_pure g; simp at this
      · rename_i hst
        split at g
        · rename_i hc
          obtain ⟨ids, g1, g⟩ := gives_bind g
          have g2 := gives_pure g
          rcases hs.ids _ _ _ g1 with rfl | ⟨d, hd, he⟩
          · simp at g2
          · refine ⟨d, hd, ?_⟩
            rw [if_neg hst, if_pos hc, he]
            exact congrArg Outcome.ok g2
        · have := gives_pure g; simp at this
    obtain ⟨d, hd, hv⟩ := key
    refine ⟨d, hd, (C27_validate_iff _ _).mp ?_⟩
    unfold Licensecc.validatePcSignature
    have e : (do
        let h' ← HwId.ofString code
        let s ← getStrategy h'.strategy
        Licensecc.validateIdentifier d s h') = Outcome.ok EventType.licenseOk := by
      rw [h1]
      show (getStrategy id.strategy >>= fun s => _) = _
      rw [h2]
      exact hv
    rw [e]
  · obtain ⟨_, _, g⟩ := gives_bind g
    have := gives_pure g
    simp at this

/-! ### The signature -/

theorem gives_fail {m : Memory} {log : Scarce Unit} {b : Bool} (g : Gives m (fail log) b) : b = false := by
  obtain ⟨_, _, g⟩ := gives_bind g
  exact (gives_pure g).symm

theorem gives_readSignature {m : Memory} {o : OpenSsl} {s b : Bytes} (g : Gives m (readSignature o s) b) :
    (o.bioRead s = some b ∨ b = s ∨ b = []) ∧ b.length < 512 := by
  obtain ⟨f, _, g⟩ := gives_bind g
  obtain ⟨u, _, g⟩ := gives_bind g
  have key : ∀ {r : Option Bytes}, Gives m (match r with
      | none => plain .ub
      | some d => if signatureBuffer ≤ d.length then plain .ub else return d) b → r = some b ∧ b.length < 512 := by
    intro r g
    cases r with
    | none => have := gives_plain g; simp at this
    | some d =>
      simp only at g
      split at g
      · have := gives_plain g; simp at this
      · rename_i hd
        have := gives_pure g
        subst this
        exact ⟨rfl, by unfold signatureBuffer at hd; omega⟩
  obtain ⟨h1, h2⟩ := key g
  refine ⟨?_, h2⟩
  cases f <;> cases u <;> simp only at h1
  · simp at h1
  · simp only [Option.some.injEq] at h1; exact .inr (.inl h1.symm)
  · simp only [Option.some.injEq] at h1; exact .inr (.inr h1.symm)
  · exact .inl h1

theorem gives_verify {m : Memory} {log : Scarce Unit} {o : OpenSsl} {d s : Bytes} (g : Gives m (verify log o d s) true) :
    ∃ b, (o.bioRead s = some b ∨ b = s ∨ b = []) ∧ b.length < 512 ∧ ConfirmsBytes o d b := by
  have bad : ¬ Gives m (fail log) true := fun g => by have := gives_fail g; simp at this
  obtain ⟨_, _, g⟩ := gives_bind g
  split at g
  · rename_i h1
    obtain ⟨_, _, g⟩ := gives_bind g
    obtain ⟨b, g1, g⟩ := gives_bind g
    obtain ⟨_, _, g⟩ := gives_bind g
    split at g
    · rename_i h2
      obtain ⟨_, _, g⟩ := gives_bind g
      split at g
      · rename_i h3
        obtain ⟨_, _, g⟩ := gives_bind g
        split at g
        · rename_i h4
          obtain ⟨_, _, g⟩ := gives_bind g
          split at g
          · rename_i h5
            simp only [Bool.and_eq_true, decide_eq_true_eq] at h1 h2 h3 h4 h5
            obtain ⟨a1, a2⟩ := gives_readSignature g1
            exact ⟨b, a1, a2, h1.2, h2.2, h3.2, h4.2, h5.2⟩
          · exact absurd g bad
        · exact absurd g bad
      · exact absurd g bad
    · exact absurd g bad
  · exact absurd g bad

/-! ### Finding and reading -/

theorem gives_split {m : Memory} {s : Bytes} {ps : List Bytes} (g : Gives m (split s) ps) : ∀ p ∈ ps, p ∈ splitString s 59 :=
  fun _ hp => (gives_streamed (gives_need g)).subset hp

theorem gives_probe {m : Memory} {w : World} {p : Bytes} (g : Gives m (probe w p) true) : w.probe p = true := by
  obtain ⟨b, _, g⟩ := gives_bind g
  have := gives_pure g
  simp only [Bool.and_eq_true] at this
  exact this.2

theorem gives_filter {m : Memory} {w : World} {extra : Bytes} {ps : List Bytes} : ∀ {r r' : Registry} {fs : List Bytes},
    Gives m (filterExistingFiles w extra r ps) (r', fs) → Keeps r r' ∧ ∀ p ∈ fs, p ∈ ps ∧ w.probe p = true := by
  induction ps with
  | nil =>
    intro r r' fs g
    rw [filterExistingFiles] at g
    have := gives_pure g
    simp only [Prod.mk.injEq] at this
    obtain ⟨rfl, rfl⟩ := this
    exact ⟨id, by simp⟩
  | cons p ps ih =>
    intro r r' fs g
    rw [filterExistingFiles] at g
    obtain ⟨r1, h1, g⟩ := gives_stepBind g
    obtain ⟨b, g1, g⟩ := gives_bind g
    cases b with
    | true =>
      obtain ⟨r2, h2, g⟩ := gives_stepBind (x := r1.addEvent .found (some p) (some extra)) g
      obtain ⟨⟨r3, fs'⟩, g2, g⟩ := gives_bind g
      have := gives_pure g
      simp only [Prod.mk.injEq] at this
      obtain ⟨rfl, rfl⟩ := this
      obtain ⟨a1, a2⟩ := ih g2
      refine ⟨fun hr => a1 (keeps_add h2 (keeps_add h1 hr)), ?_⟩
      intro q hq
      rcases List.mem_cons.mp hq with rfl | hq
      · exact ⟨by simp, gives_probe g1⟩
      · exact ⟨by simp [(a2 q hq).1], (a2 q hq).2⟩
    | false =>
      obtain ⟨r2, h2, g⟩ := gives_stepBind (x := r1.addEvent .fileNotFound (some p) (some extra)) g
      obtain ⟨a1, a2⟩ := ih g
      refine ⟨fun hr => a1 (keeps_add h2 (keeps_add h1 hr)), ?_⟩
      intro q hq
      exact ⟨by simp [(a2 q hq).1], (a2 q hq).2⟩

theorem gives_contents {m : Memory} {w : World} {p text : Bytes} (g : Gives m (getFileContents w p maxLicenseData) text) :
    ∃ c, w.read p = some c ∧ text = c.take 4096 := by
  obtain ⟨b, _, g⟩ := gives_bind g
  cases b with
  | false => have := gives_plain g; simp at this
  | true =>
    have := gives_step (x := Licensecc.getFileContents w p maxLicenseData) g
    unfold Licensecc.getFileContents at this
    cases hc : w.read p with
    | none => rw [hc] at this; simp at this
    | some c =>
      rw [hc] at this
      exact ⟨c, rfl, by simpa [maxLicenseData] using this.symm⟩

/-- What is located and read through one locator is offered. -/
theorem gives_locate {cfg : Config} {m : Memory} {h : Hooks} {hint : Option LicenseLocation} {l : Locator}
    (hl : l ∈ activeStrategies cfg hint) {r r' : Registry} {locs : List Bytes} {b : Bool}
    (g : Gives m (licenseLocations h l r) (r', locs, b)) :
    Keeps r r' ∧ ∀ src ∈ locs, ∀ text, Gives m (retrieveContent h.world l b src) text → Offers cfg h.world hint src text := by
  rw [mem_activeStrategies] at hl
  rcases hl with ⟨hn, rfl⟩ | ⟨he, rfl | rfl⟩ | ⟨loc, hh, rfl⟩
  · unfold licenseLocations at g
    cases hm : h.world.moduleName with
    | none =>
      rw [hm] at g
      obtain ⟨_, _, g⟩ := gives_bind (x := h.log) g
      have := gives_pure g
      simp only [Prod.mk.injEq] at this
      obtain ⟨rfl, rfl, rfl⟩ := this
      exact ⟨id, by simp⟩
    | some md =>
      rw [hm] at g
      replace g := gives_need g
      obtain ⟨p, g1, g⟩ := gives_bind g
      cases p with
      | true =>
        obtain ⟨r1, h1, g⟩ := gives_stepBind (x := r.addEvent .found _) g
        have := gives_pure g
        simp only [Prod.mk.injEq] at this
        obtain ⟨rfl, rfl, rfl⟩ := this
        refine ⟨keeps_add h1, ?_⟩
        intro src hs text gr
        simp only [List.mem_singleton] at hs; subst hs
        obtain ⟨c, hc, rfl⟩ := gives_contents gr
        exact .nearModule hn hm (gives_probe g1) hc
      | false =>
        obtain ⟨r1, h1, g⟩ := gives_stepBind (x := r.addEvent .fileNotFound _) g
        have := gives_pure g
        simp only [Prod.mk.injEq] at this
        obtain ⟨rfl, rfl, rfl⟩ := this
        exact ⟨keeps_add h1, by simp⟩
  · unfold licenseLocations at g
    replace g := gives_need g
    have none_case : Gives m (do
        let r ← step (r.addEvent .envVarNotDefined none)
        return (r, [], false)) (r', locs, b) → Keeps r r' ∧ locs = [] := by
      intro g
      obtain ⟨r1, h1, g⟩ := gives_stepBind g
      have := gives_pure g
      simp only [Prod.mk.injEq] at this
      obtain ⟨rfl, rfl, rfl⟩ := this
      exact ⟨keeps_add h1, rfl⟩
    cases hv : h.world.getenv locationVar with
    | none =>
      rw [hv] at g
      obtain ⟨e, rfl⟩ := none_case g
      exact ⟨e, by simp⟩
    | some v =>
    cases v with
    | nil =>
      rw [hv] at g
      obtain ⟨e, rfl⟩ := none_case g
      exact ⟨e, by simp⟩
    | cons c v =>
      rw [hv] at g
      obtain ⟨ps, g1, g⟩ := gives_bind (x := split (c :: v)) g
      obtain ⟨⟨r1, fs⟩, g2, g⟩ := gives_bind g
      have := gives_pure g
      simp only [Prod.mk.injEq] at this
      obtain ⟨rfl, rfl, rfl⟩ := this
      obtain ⟨a1, a2⟩ := gives_filter g2
      refine ⟨a1, ?_⟩
      intro src hs text gr
      obtain ⟨c, hc, rfl⟩ := gives_contents gr
      exact .envLocation he hv (gives_split g1 _ (a2 src hs).1) (a2 src hs).2 hc
  · have h1 := gives_step (x := Licensecc.licenseLocations h.world .environmentVarData r) g
    refine ⟨(licenseLocations_adds h1).history, ?_⟩
    intro src hs text gr
    have h2 := gives_step (x := Licensecc.retrieveContent h.world .environmentVarData b src) gr
    obtain ⟨dat, v, h3, h4, rfl, h5, h6⟩ := (offers_envData h1 src text).mp ⟨hs, h2⟩
    rcases h6 with ⟨h6, rfl⟩ | ⟨h6, h7, rest, h8⟩
    · exact .envData he h3 h4 h6 h5
    · exact .envDataEncoded he h3 h4 h6 h5 h8 h7
  · unfold licenseLocations at g
    simp only at g
    cases hd : loc.data with
    | nil => rw [hd] at g; have := gives_plain g; simp at this
    | cons c0 mem =>
      rw [hd] at g
      simp only at g
      split at g
      · have := gives_pure g
        simp only [Prod.mk.injEq] at this
        obtain ⟨rfl, rfl, rfl⟩ := this
        exact ⟨id, by simp⟩
      · rename_i hc
        have hne : ∀ d, TextIn loc.data 4096 d → d ≠ [] := by
          rintro d ht rfl; rw [hd, textIn_nil] at ht; exact hc ht
        obtain ⟨r1, h1, g⟩ := gives_stepBind g
        split at g
        · rename_i hk
          obtain ⟨d, h2, g⟩ := gives_stepBind g
          obtain ⟨ps, g1, g⟩ := gives_bind g
          obtain ⟨⟨r2, fs⟩, g2, g⟩ := gives_bind g
          have := gives_pure g
          simp only [Prod.mk.injEq] at this
          obtain ⟨rfl, rfl, rfl⟩ := this
          obtain ⟨a1, a2⟩ := gives_filter g2
          refine ⟨fun hr => a1 (keeps_add h1 hr), ?_⟩
          intro src hs text gr
          obtain ⟨g4, g7⟩ := a2 src hs
          replace g4 := gives_split g1 _ g4
          rw [← hd] at h2
          have ht : TextIn loc.data 4096 d := boundedString_iff.mp h2
          unfold retrieveContent at gr
          simp only at gr
          split at gr
          · rename_i hsrc
            have hr := gives_step gr
            unfold Licensecc.retrieveContent at hr
            simp only at hr
            rw [if_pos hsrc, h2] at hr
            replace hr : (if loc.kind = 2 then _ else _) = Outcome.ok text := hr
            rw [if_neg (by omega)] at hr
            simp only [Outcome.pure_eq, Outcome.ok.injEq] at hr
            subst hr
            subst hsrc
            exact .hintPathOddName hh hk ht g4 g7
          · rename_i hsrc
            obtain ⟨c, hc, rfl⟩ := gives_contents gr
            exact .hintPath hh hk ht g4 g7 hsrc hc
        · rename_i hk0
          split at g
          · rename_i hk
            have := gives_step g
            simp only [Outcome.ok.injEq, Prod.mk.injEq] at this
            obtain ⟨rfl, rfl, rfl⟩ := this
            refine ⟨keeps_add h1, ?_⟩
            intro src hs text gr
            simp only [List.mem_singleton] at hs; subst hs
            unfold retrieveContent at gr
            simp only [if_true] at gr
            have hr := gives_step gr
            unfold Licensecc.retrieveContent at hr
            simp only [if_true] at hr
            obtain ⟨d, h4, hr⟩ := Outcome.bind_eq_ok.mp hr
            have ht : TextIn loc.data 4096 d := boundedString_iff.mp h4
            split at hr
            · rename_i hk2
              obtain ⟨u, hu, hr⟩ := Outcome.bind_eq_ok.mp hr
              obtain ⟨h0, rest, rfl⟩ := stringOfVector_iff.mp hr
              exact .hintEncoded hh hk2 ht (hne d ht) hu h0
            · simp only [Outcome.pure_eq, Outcome.ok.injEq] at hr
              subst hr
              exact .hintPlain hh (by omega) ht (hne d ht)
          · have := gives_step g; simp at this

theorem gives_readLocations {cfg : Config} {m : Memory} {w : World} {hint : Option LicenseLocation} {feature : Bytes} {l : Locator} {b : Bool}
    {locs : List Bytes} : ∀ {r r' : Registry} {lics : List FullLicense},
    (∀ src ∈ locs, ∀ text, Gives m (retrieveContent w l b src) text → Offers cfg w hint src text) →
    Gives m (readLocations w feature l b r locs) (r', lics) →
    Keeps r r' ∧ ∀ lic ∈ lics, ∃ src text, Offers cfg w hint src text ∧ IsLicence feature src text lic := by
  induction locs with
  | nil =>
    intro r r' lics _ g
    rw [readLocations] at g
    have := gives_pure g
    simp only [Prod.mk.injEq] at this
    obtain ⟨rfl, rfl⟩ := this
    exact ⟨id, by simp⟩
  | cons s locs ih =>
    intro r r' lics hloc g
    rw [readLocations] at g
    obtain ⟨c, g1, g⟩ := gives_bind g
    obtain ⟨⟨r1, o⟩, h2, g⟩ := gives_stepBind g
    obtain ⟨⟨r2, lics'⟩, g3, g⟩ := gives_bind g
    have := gives_pure g
    simp only [Prod.mk.injEq] at this
    obtain ⟨rfl, rfl⟩ := this
    obtain ⟨a1, a2⟩ := ih (fun src hs => hloc src (by simp [hs])) g3
    have ho := readOne_spec h2
    have hadd : Keeps r r1 := by
      obtain ⟨_, _, h5⟩ := readOne_adds h2
      exact h5.history
    refine ⟨fun hr => a1 (hadd hr), ?_⟩
    intro lic hl
    rw [List.mem_append, Option.mem_toList] at hl
    rcases hl with hl | hl
    · exact ⟨s, c, hloc s (by simp) c g1, (ho lic).mp hl⟩
    · exact a2 lic hl

theorem gives_readLocators {cfg : Config} {m : Memory} {h : Hooks} {hint : Option LicenseLocation} {feature : Bytes} {ls : List Locator} :
    ∀ {r r' : Registry} {lics : List FullLicense}, (∀ l ∈ ls, l ∈ activeStrategies cfg hint) →
    Gives m (readLocators h feature r ls) (r', lics) →
    Keeps r r' ∧ ∀ lic ∈ lics, ∃ src text, Offers cfg h.world hint src text ∧ IsLicence feature src text lic := by
  induction ls with
  | nil =>
    intro r r' lics _ g
    rw [readLocators] at g
    have := gives_pure g
    simp only [Prod.mk.injEq] at this
    obtain ⟨rfl, rfl⟩ := this
    exact ⟨id, by simp⟩
  | cons l ls ih =>
    intro r r' lics hact g
    rw [readLocators] at g
    obtain ⟨⟨r1, locs, b⟩, g1, g⟩ := gives_bind g
    obtain ⟨⟨r2, lics1⟩, g2, g⟩ := gives_bind g
    obtain ⟨⟨r3, lics2⟩, g3, g⟩ := gives_bind g
    have := gives_pure g
    simp only [Prod.mk.injEq] at this
    obtain ⟨rfl, rfl⟩ := this
    obtain ⟨a1, a2⟩ := gives_locate (hact l (by simp)) g1
    obtain ⟨b1, b2⟩ := gives_readLocations a2 g2
    obtain ⟨c1, c2⟩ := ih (fun l hl => hact l (by simp [hl])) g3
    refine ⟨fun hr => c1 (b1 (a1 hr)), ?_⟩
    intro lic hl
    rcases List.mem_append.mp hl with hl | hl
    · exact b2 lic hl
    · exact c2 lic hl

theorem gives_readLicenses {cfg : Config} {m : Memory} {h : Hooks} {hint : Option LicenseLocation} {feature : Bytes} {r : Registry}
    {lics : List FullLicense} (g : Gives m (readLicenses cfg h hint feature) (r, lics)) :
    (∃ r0, AddHistory r0 ∧ ((lics = [] ∧ ∃ b, r0.turnWarningsIntoErrors = .ok (r, b)) ∨ (lics ≠ [] ∧ r = r0)))
    ∧ ∀ lic ∈ lics, ∃ src text, Offers cfg h.world hint src text ∧ IsLicence feature src text lic := by
  replace g := gives_need g
  split at g
  · obtain ⟨r1, h1, g⟩ := gives_stepBind g
    obtain ⟨⟨r2, b⟩, h2, g⟩ := gives_plainBind g
    have := gives_pure g
    simp only [Prod.mk.injEq] at this
    obtain ⟨rfl, rfl⟩ := this
    exact ⟨⟨r1, .add (.empty _) h1, .inl ⟨rfl, b, h2⟩⟩, by simp⟩
  · obtain ⟨⟨r1, lics1⟩, g1, g⟩ := gives_bind g
    obtain ⟨a2, a3⟩ := gives_readLocators (fun l hl => hl) g1
    simp only at g
    split at g
    · rename_i he
      obtain ⟨⟨r2, b⟩, h2, g⟩ := gives_plainBind g
      have := gives_pure g
      simp only [Prod.mk.injEq] at this
      obtain ⟨rfl, rfl⟩ := this
      simp only [List.isEmpty_iff] at he
      exact ⟨⟨r1, a2 (.empty _), .inl ⟨he, b, h2⟩⟩, a3⟩
    · rename_i he
      have := gives_pure g
      simp only [Prod.mk.injEq] at this
      obtain ⟨rfl, rfl⟩ := this
      simp only [List.isEmpty_iff] at he
      exact ⟨⟨r1, a2 (.empty _), .inr ⟨he, rfl⟩⟩, a3⟩

/-! ### Judging -/

theorem gives_verifySignature {m : Memory} {h : Hooks} {lic : FullLicense} {r r' : Registry} {good : Bool}
    (g : Gives m (verifySignature h lic r) (r', good)) :
    Keeps r r' ∧ ∃ d, d <+: lic.printForSign ∧ Gives m (h.verify d lic.signature) good := by
  obtain ⟨d, g1, g⟩ := gives_bind g
  obtain ⟨b, g2, g⟩ := gives_bind g
  obtain ⟨r1, h1, g⟩ := gives_stepBind g
  have := gives_pure g
  simp only [Prod.mk.injEq] at this
  obtain ⟨rfl, rfl⟩ := this
  exact ⟨keeps_add h1, d, gives_streamed (gives_need g1), g2⟩

/-- The limits of a licence hold, on a machine that is near. -/
def Within (cfg : Config) (h : Hooks) (near : Machine → Prop) (lic : FullLicense) (now : Int) : Prop :=
  lic.magic = cfg.magic
  ∧ (∀ d, SMap.find? kExpiry lic.limits = some d → ∃ t, secondsFromEpoch h.world.mktime d = .ok t ∧ now ≤ t)
  ∧ (∀ d, SMap.find? kBegin lic.limits = some d → ∃ t, secondsFromEpoch h.world.mktime d = .ok t ∧ t ≤ now)
  ∧ ∃ d, near d ∧ ∀ s, SMap.find? kClient lic.limits = some s →
      ∃ x, HwId.ofString s = .ok x ∧ HwMatches d x

theorem gives_checkClient {m : Memory} {h : Hooks} {near : Machine → Prop} (hs : Sees h near) {lic : FullLicense} {r r' : Registry} {v : Bool}
    (g : Gives m (checkClient h lic r) (r', v)) :
    Keeps r r' ∧ (v = true → ∃ d, near d ∧ ∀ s, SMap.find? kClient lic.limits = some s →
      ∃ x, HwId.ofString s = .ok x ∧ HwMatches d x) := by
  unfold checkClient at g
  cases hc : SMap.find? kClient lic.limits with
  | none =>
    rw [hc] at g
    have := gives_pure g
    simp only [Prod.mk.injEq] at this
    obtain ⟨rfl, rfl⟩ := this
    exact ⟨id, fun _ => hs.some.imp fun d hd => ⟨hd, by simp⟩⟩
  | some s =>
    rw [hc] at g
    obtain ⟨ev, g1, g⟩ := gives_bind (x := validatePcSignature h s) g
    obtain ⟨r1, h1, g⟩ := gives_stepBind g
    have := gives_pure g
    simp only [Prod.mk.injEq] at this
    obtain ⟨rfl, rfl⟩ := this
    refine ⟨keeps_add h1, ?_⟩
    intro hv
    simp only [decide_eq_true_eq] at hv
    subst hv
    obtain ⟨d, hd, hx⟩ := gives_validatePc hs g1
    refine ⟨d, hd, ?_⟩
    intro s' hs'
    simp only [Option.some.injEq] at hs'
    subst hs'
    exact hx

theorem gives_verifyLimits {cfg : Config} {m : Memory} {h : Hooks} {near : Machine → Prop} (hs : Sees h near) {lic : FullLicense} {r r' : Registry} {k k' : Nat} {v : Bool}
    (g : Gives m (verifyLimits cfg h lic r k) (r', k', v)) :
    Keeps r r' ∧ (v = true → Within cfg h near lic (h.world.clock k)) := by
  simp only [verifyLimits] at g
  split at g
  · rename_i hm
    obtain ⟨⟨r1, v1⟩, h1, g⟩ := gives_stepBind g
    have e1 := checkExpiry_ok h1
    have k1 := checkExpiry_keeps h1
    simp only at g
    split at g
    · rename_i hv1
      obtain ⟨⟨r2, v2⟩, h2, g⟩ := gives_stepBind g
      have e2 := checkBegin_ok h2
      have k2 := checkBegin_keeps h2
      simp only at g
      split at g
      · rename_i hv2
        obtain ⟨⟨r3, v3⟩, g3, g⟩ := gives_bind g
        obtain ⟨k3, e3⟩ := gives_checkClient hs g3
        have := gives_pure g
        simp only [Prod.mk.injEq] at this
        obtain ⟨rfl, rfl, rfl⟩ := this
        exact ⟨fun hr => k3 (k2 (k1 hr)), fun hv => ⟨hm, e1.mp hv1, e2.mp hv2, e3 hv⟩⟩
      · have := gives_pure g
        simp only [Prod.mk.injEq] at this
        obtain ⟨rfl, rfl, rfl⟩ := this
        exact ⟨fun hr => k2 (k1 hr), by simp⟩
    · have := gives_pure g
      simp only [Prod.mk.injEq] at this
      obtain ⟨rfl, rfl, rfl⟩ := this
      exact ⟨k1, by simp⟩
  · obtain ⟨r1, h1, g⟩ := gives_stepBind g
    have := gives_pure g
    simp only [Prod.mk.injEq] at this
    obtain ⟨rfl, rfl, rfl⟩ := this
    exact ⟨keeps_add h1, by simp⟩

theorem gives_judgeLoop {cfg : Config} {m : Memory} {h : Hooks} {near : Machine → Prop} (hs : Sees h near) {caller : Option Caller} {ls : List FullLicense} :
    ∀ {r r' : Registry} {k k' : Nat} {oks errs : List LicInfo},
    Gives m (judgeLoop cfg h caller r k ls) (r', k', oks, errs) →
    Keeps r r' ∧ (oks ≠ [] → ∃ lic ∈ ls, ∃ d j, d <+: lic.printForSign ∧ Gives m (h.verify d lic.signature) true
      ∧ Within cfg h near (withMagic caller lic) (h.world.clock j)) := by
  induction ls with
  | nil =>
    intro r r' k k' oks errs g
    rw [judgeLoop] at g
    have := gives_pure g
    simp only [Prod.mk.injEq] at this
    obtain ⟨rfl, rfl, rfl, rfl⟩ := this
    exact ⟨id, by simp⟩
  | cons lic ls ih =>
    intro r r' k k' oks errs g
    rw [judgeLoop] at g
    obtain ⟨⟨r1, good⟩, g1, g⟩ := gives_bind g
    obtain ⟨k1, d, hd, hv⟩ := gives_verifySignature g1
    obtain ⟨⟨i, k2⟩, _, g⟩ := gives_stepBind g
    simp only at g
    split at g
    · rename_i hg
      obtain ⟨⟨r2, k3, v⟩, g3, g⟩ := gives_bind g
      replace g := gives_need g
      obtain ⟨⟨r3, k4, oks', errs'⟩, g4, g⟩ := gives_bind g
      have := gives_pure g
      simp only [Prod.mk.injEq] at this
      obtain ⟨rfl, rfl, rfl, rfl⟩ := this
      obtain ⟨a1, a2⟩ := gives_verifyLimits hs g3
      obtain ⟨b1, b2⟩ := ih g4
      refine ⟨fun hr => b1 (a1 (k1 hr)), ?_⟩
      intro hne
      cases v with
      | true =>
        subst hg
        exact ⟨lic, by simp, d, k2, hd, hv, a2 rfl⟩
      | false =>
        obtain ⟨lic', hl', rest⟩ := b2 hne
        exact ⟨lic', by simp [hl'], rest⟩
    · replace g := gives_need g
      obtain ⟨⟨r3, k4, oks', errs'⟩, g4, g⟩ := gives_bind g
      have := gives_pure g
      simp only [Prod.mk.injEq] at this
      obtain ⟨rfl, rfl, rfl, rfl⟩ := this
      obtain ⟨b1, b2⟩ := ih g4
      refine ⟨fun hr => b1 (k1 hr), ?_⟩
      intro hne
      obtain ⟨lic', hl', rest⟩ := b2 hne
      exact ⟨lic', by simp [hl'], rest⟩

/-- What happened in a call that returns LICENSE_OK. -/
theorem gives_acquire {cfg : Config} {m : Memory} {h : Hooks} {near : Machine → Prop} (hs : Sees h near) {caller : Option Caller} {hint : Option LicenseLocation}
    {out : Option LicInfo} {res : AcquireResult} (g : Gives m (acquire cfg h caller hint out) res) (hok : res.ret = .licenseOk) :
    ∃ feature r r' lics k oks errs, FeatureIs cfg caller feature ∧ Gives m (readLicenses cfg h hint feature) (r, lics)
      ∧ Gives m (judgeLoop cfg h caller r 0 lics) (r', k, oks, errs) ∧ oks ≠ [] := by
  obtain ⟨f, hf, g⟩ := gives_stepBind g
  obtain ⟨⟨r, lics⟩, gr, g⟩ := gives_bind g
  obtain ⟨⟨r0, a2, a3⟩, _⟩ := gives_readLicenses gr
  have ne : ∀ {t : EventType}, IsFailure t → t ≠ .licenseOk := by rintro t ht rfl; simp [IsFailure, stage] at ht
  cases lics with
  | nil =>
    exfalso
    have h := gives_plain (x := Licensecc.judge cfg h.world caller out r []) g
    simp only [Licensecc.judge] at h
    obtain ⟨⟨r1, b⟩, h1, h⟩ := Outcome.bind_eq_ok.mp h
    obtain ⟨t, h2, h⟩ := Outcome.bind_eq_ok.mp h
    obtain ⟨e1, e2, _⟩ := finish_ok h
    rcases a3 with ⟨_, b0, hw0⟩ | ⟨hne, _⟩
    · have hi : r0.Inv := (exact_addHistory a2).2.1
      obtain ⟨b', hid⟩ := turnWarnings_idem hi hw0
      rw [hid] at h1
      simp only [Outcome.ok.injEq, Prod.mk.injEq] at h1
      exact ne (refused a2 hw0 (by rw [h1.1]; exact h2)) (e1 ▸ hok)
    · exact absurd rfl hne
  | cons lic ls =>
    replace g := gives_need g
    obtain ⟨⟨r1, k, oks, errs⟩, g1, g⟩ := gives_bind g
    refine ⟨f, r, r1, lic :: ls, k, oks, errs, featureOf_iff.mp hf, gr, g1, ?_⟩
    rintro rfl
    obtain ⟨b1, _⟩ := gives_judgeLoop hs g1
    have hr0 : r = r0 := by
      rcases a3 with ⟨hnil, _⟩ | ⟨_, e⟩
      · simp at hnil
      · exact e
    subst hr0
    obtain ⟨⟨r2, b⟩, h2, g⟩ := gives_plainBind (x := r1.turnWarningsIntoErrors) g
    obtain ⟨t, h3, g⟩ := gives_plainBind g
    obtain ⟨e1, _⟩ := finish_ok (gives_plain g)
    exact ne (refused (b1 a2) h2 h3) (e1 ▸ hok)

/-! ## The property -/

/-- The machine of a Linux system of which less of the disks is there. -/
def nearLinux (l : Linux) (d : Machine) : Prop := ∃ disks, DisksLess l.disks disks ∧ d = { l with disks := disks }.world.machine

/-- Logging neither throws nor passes `std::bad_alloc` on. -/
theorem log_end (l : Linux) (m : Memory) (n : Nat) : ∃ n', (log l).run m n = (.ok (), n') ∨ (log l).run m n = (.ub, n') := by
  unfold log
  split
  · exact ⟨n, .inr rfl⟩
  · split
    · have e : ∀ f : Bool → Scarce Unit, (request >>= f).run m n = (f (m n).isNone).run m (n + 1) := fun f => rfl
      rw [e]
      cases (m n).isNone with
      | true =>
        have e' : ∀ f : Bool → Scarce Unit, (request >>= f).run m (n + 1) = (f (m (n + 1)).isNone).run m (n + 2) := fun f => rfl
        simp only [if_true]
        rw [e']
        cases (m (n + 1)).isNone with
        | true => exact ⟨n + 2, .inl rfl⟩
        | false => exact ⟨n + 2, .inr rfl⟩
      | false => exact ⟨n + 1, .inl rfl⟩
    · have e : ∀ f : Bool → Scarce Unit, (request >>= f).run m n = (f (m n).isNone).run m (n + 1) := fun f => rfl
      rw [e]
      cases (m n).isNone with
      | true => exact ⟨n + 1, .inl rfl⟩
      | false => exact ⟨n + 1, .inr rfl⟩

theorem sees_linux (l : Linux) : Sees (linuxHooks l) (nearLinux l) where
  some := ⟨_, l.disks, disksLess_refl _, rfl⟩
  ids m s ids g := (gives_ids g).imp id fun ⟨d, hd, he⟩ => ⟨_, ⟨d, hd, rfl⟩, he⟩
  log := log_end l

/-- **C84**: whatever requests for memory are refused, LICENSE_OK is returned only for an offered licence text for the feature, within its
    dates and on a machine of which at most something was overlooked, and OpenSSL confirmed its signature - for a beginning of the data
    that it covers, where the memory to put the rest together was refused. -/
theorem C84_sound {cfg : Config} {l : Linux} {caller : Option Caller} {hint : Option LicenseLocation} {out : Option LicInfo}
    {res : AcquireResult} {memory : Memory} {n n' : Nat}
    (h : (acquire cfg (linuxHooks l) caller hint out).run memory n = (.ok res, n')) (hok : res.ret = .licenseOk) :
    ∃ feature src text disks k, FeatureIs cfg caller feature ∧ Offers cfg l.world hint src text ∧ Complete feature text
      ∧ magicOf caller = cfg.magic ∧ BeginningSigned l.ssl feature text ∧ NotExpired l.world feature text (l.clock k)
      ∧ Started l.world feature text (l.clock k) ∧ DisksLess l.disks disks
      ∧ OnThisMachine { l with disks := disks }.world feature text := by
  obtain ⟨f, r, r', lics, k, oks, errs, hf, gr, gj, hne⟩ := gives_acquire (sees_linux l) ⟨n, n', h⟩ hok
  obtain ⟨_, a3⟩ := gives_readLicenses gr
  obtain ⟨_, b3⟩ := gives_judgeLoop (sees_linux l) gj
  obtain ⟨lic, hl, d, j, c1, c2, c3, c4, c5, _, ⟨dd, c6, rfl⟩, c7⟩ := b3 hne
  obtain ⟨src, text, d1, d2⟩ := a3 lic hl
  obtain ⟨b, e1, e2, e3⟩ := gives_verify c2
  refine ⟨f, src, text, dd, j, hf, d1, ⟨⟨_, d2.signature⟩, (Ini.toLong_200 _).mp d2.version⟩, ?_,
    ⟨lic.signature, lic.printForSign, d, b, d2.signature, signingData_of_licence d2, c1, e1, e2, e3⟩, ?_, ?_, c6, ?_⟩
  · rw [← c3]; cases caller <;> simp [withMagic, magicOf, d2.magic]
  · intro x hx; exact c4 x ((d2.limits _ _).mpr hx)
  · intro x hx; exact c5 x ((d2.limits _ _).mpr hx)
  · intro x hx; exact c7 x ((d2.limits _ _).mpr hx)

/-- **C84**: if no two different texts have the same signature in this way, overlooking disks brings no licence onto this machine, and
    no licence begins or expires between the two calls, nothing is accepted that would not be accepted with enough memory. -/
theorem C84_no_more {cfg : Config} {l : Linux} {caller : Option Caller} {hint : Option LicenseLocation} {out : Option LicInfo}
    {res res' : AcquireResult} {memory : Memory} {n n' : Nat}
    (hclock : ∀ feature src text k j, Offers cfg l.world hint src text →
      NotExpired l.world feature text (l.clock k) → Started l.world feature text (l.clock k) →
      NotExpired l.world feature text (l.clock j) ∧ Started l.world feature text (l.clock j))
    (hsign : ∀ feature src text, Offers cfg l.world hint src text → BeginningSigned l.ssl feature text → Signed l.world feature text)
    (hdisks : ∀ feature src text disks, Offers cfg l.world hint src text → DisksLess l.disks disks →
      OnThisMachine { l with disks := disks }.world feature text → OnThisMachine l.world feature text)
    (h' : Licensecc.acquire cfg l.world caller hint out = .ok res')
    (h : (acquire cfg (linuxHooks l) caller hint out).run memory n = (.ok res, n')) (hok : res.ret = .licenseOk) :
    res'.ret = .licenseOk := by
  obtain ⟨f, src, text, d, k, h1, h2, h3, h4, h5, h6, h7, h8, h9⟩ := C84_sound h hok
  exact C02_license_ok_complete h' h1 h2 fun j _ =>
    ⟨h3, hsign f src text h2 h5, h4, (hclock f src text k j h2 h6 h7).1, (hclock f src text k j h2 h6 h7).2, hdisks f src text d h2 h8 h9⟩

/-! ## identify_pc -/

/-- The computation ends in no exception of the library's own. -/
def NoThrow {α : Type} (x : Scarce α) : Prop := ∀ m n n' e, x.run m n ≠ (.throw e, n')

theorem NoThrow.bind {α β : Type} {x : Scarce α} {f : α → Scarce β} (hx : NoThrow x) (hf : ∀ a, NoThrow (f a)) : NoThrow (x >>= f) := by
  intro m n n' e h
  cases hr : x.run m n with
  | mk r k =>
    rw [run_bind hr] at h
    cases r with
    | ok a => exact hf a m k n' e h
    | throw e' => exact hx m n k e' hr
    | noMemory => simp at h
    | ub => simp at h

theorem NoThrow.pure {α : Type} (a : α) : NoThrow (Pure.pure a : Scarce α) := by
  intro m n n' e h
  have : ((End.ok a, n) : End α × Nat) = (.throw e, n') := h
  simp at this

theorem noThrow_need : NoThrow need := by
  intro m n n' e h
  have : ((if (m n).isNone then End.ok () else .noMemory, n + 1) : End Unit × Nat) = (.throw e, n') := h
  split at this <;> simp at this

theorem noThrow_request : NoThrow request := by
  intro m n n' e h
  have : ((End.ok (m n).isNone, n + 1) : End Bool × Nat) = (.throw e, n') := h
  simp at this

theorem noThrow_opening : NoThrow opening := by
  intro m n n' e h
  have : ((match m n with
    | none => End.ok true
    | some 0 => .ok false
    | some _ => .noMemory, n + 1) : End Bool × Nat) = (.throw e, n') := h
  split at this <;> simp at this

theorem noThrow_streamed {β : Type} {s : List β} : NoThrow (streamed s) := by
  intro m n n' e h
  have : ((End.ok (match m n with
    | none => s
    | some k => s.take k), n + 1) : End (List β) × Nat) = (.throw e, n') := h
  simp at this

theorem noThrow_ok {α : Type} {a : α} : NoThrow (step (.ok a)) :=
  .bind noThrow_need (fun _ => .pure a)

theorem noThrow_ub {α : Type} : NoThrow (plain .ub : Scarce α) := by
  intro m n n' e h
  have : ((End.ub, n) : End α × Nat) = (.throw e, n') := h
  simp at this

theorem gives_generateFirst {m : Memory} {h : Hooks} {near : Machine → Prop} (hs : Sees h near) {s : Strategy} {id : HwId} (g : Gives m (generateFirst h s) (some id)) :
    ∃ d, near d ∧ HwMatches d id := by
  obtain ⟨ids, g1, g⟩ := gives_bind g
  have e := gives_pure g
  rcases hs.ids _ _ _ g1 with rfl | ⟨d, hd, he⟩
  · simp at e
  · refine ⟨d, hd, generateFirst_some _ s id ?_⟩
    unfold Licensecc.generateFirst
    rw [he]
    exact congrArg Outcome.ok e

theorem gives_tryStrategies {m : Memory} {h : Hooks} {near : Machine → Prop} (hs : Sees h near) {ns : List Int} {id : HwId}
    (g : Gives m (tryStrategies h ns) (some id)) :
    ∃ d, near d ∧ HwMatches d id := by
  induction ns with
  | nil => rw [tryStrategies] at g; have := gives_pure g; simp at this
  | cons k ns ih =>
    rw [tryStrategies] at g
    obtain ⟨s, _, g⟩ := gives_stepBind g
    obtain ⟨o, g1, g⟩ := gives_bind g
    cases o with
    | none => exact ih g
    | some i =>
      have := gives_pure g
      simp only [Option.some.injEq] at this
      subst this
      exact gives_generateFirst hs g1

theorem gives_signature {m : Memory} {h : Hooks} {near : Machine → Prop} (hs : Sees h near) {k : Int} {text : Bytes} (g : Gives m (generateUserPcSignature h k) text) :
    ∃ d, near d ∧ ∃ x, HwMatches d x ∧ x.print = .ok text := by
  obtain ⟨_, _, g⟩ := gives_bind g
  obtain ⟨s, _, g⟩ := gives_stepBind g
  obtain ⟨o, g1, g⟩ := gives_bind g
  cases o with
  | none => have := gives_step g; simp at this
  | some id =>
    have hp := gives_step g
    have : ∃ d, near d ∧ HwMatches d id := by
      unfold generatePcId at g1
      split at g1
      · obtain ⟨_, _, g1⟩ := gives_bind g1
        exact gives_tryStrategies hs g1
      · exact gives_generateFirst hs g1
    obtain ⟨d, hd, hm⟩ := this
    refine ⟨d, hd, _, ?_, hp⟩
    cases (selectStrategy h.world.machine.strategyVar k).2 <;> simpa [HwId.setUseEnvVar, Spec.HwMatches] using hm

/-- How the identifier part ends. -/
theorem identifyPc_end {h : Hooks} {near : Machine → Prop} (hs : Sees h near) {strategy : Int} {buf : Option Bytes} {size : Nat} {memory : Memory} {n n' : Nat}
    {e : End IdentifyResult} (hbuf : ∀ mem, buf = some mem → size ≤ mem.length)
    (hx : (identifyPc h strategy buf size).run memory n = (e, n')) :
    e = .ub ∨ ∃ r, e = .ok r ∧ ((r.ret = false ∧ r.buf = buf) ∨ ∃ text rest disks, r = ⟨true, size, some (text ++ 0 :: rest)⟩
      ∧ text.length = 14 ∧ 0 ∉ text ∧ near disks
      ∧ Licensecc.validatePcSignature disks text = .ok .licenseOk) := by
  unfold identifyPc at hx
  cases buf with
  | none =>
    have : ((End.ok ⟨false, 20, none⟩, n) : End IdentifyResult × Nat) = (e, n') := hx
    simp only [Prod.mk.injEq] at this
    exact .inr ⟨_, this.1.symm, .inl ⟨rfl, rfl⟩⟩
  | some mem =>
    simp only at hx
    split at hx
    · rename_i hsize
      have hlen := hbuf mem rfl
      unfold catchAll at hx
      simp only at hx
      have handler : ∀ {k : Nat}, (do
          h.log
          return ⟨false, size, some mem⟩ : Scarce IdentifyResult).run memory k = (e, n') →
          e = .ub ∨ ∃ r, e = .ok r ∧ (r.ret = false ∧ r.buf = some mem) := by
        intro k hk
        obtain ⟨k', hl | hl⟩ := hs.log memory k
        · rw [run_bind (x := h.log) hl] at hk
          have : ((End.ok ⟨false, size, some mem⟩, k') : End IdentifyResult × Nat) = (e, n') := hk
          simp only [Prod.mk.injEq] at this
          exact .inr ⟨_, this.1.symm, rfl, rfl⟩
        · rw [run_bind (x := h.log) hl] at hk
          simp only [Prod.mk.injEq] at hk
          exact .inl hk.1.symm
      cases hg : (generateUserPcSignature h strategy).run memory n with
      | mk r k =>
        rw [run_bind hg] at hx
        cases r with
        | ok text =>
          simp only at hx
          obtain ⟨d, hd, x, hmx, hp⟩ := gives_signature hs ⟨n, k, hg⟩
          obtain ⟨t, ht, h14, h0⟩ := print_length x
          rw [hp] at ht
          simp only [Outcome.ok.injEq] at ht
          subst ht
          have hcopy : mstrlcpy mem (text ++ [0]) size = .ok (text ++ 0 :: mem.drop 15, 15) := by
            obtain ⟨s', hsz⟩ : ∃ s', size = s' + 1 := ⟨size - 1, by omega⟩
            subst hsz
            rw [mstrlcpy, mstrlcpyLoop_spec text [] h0 s' mem (by omega)]
            have e1 : min text.length s' = 14 := by omega
            rw [e1, List.take_of_length_le (by omega)]
          rw [hcopy] at hx
          have : ((End.ok ⟨true, size, some (text ++ 0 :: mem.drop 15)⟩, k) : End IdentifyResult × Nat) = (e, n') := hx
          simp only [Prod.mk.injEq] at this
          exact .inr ⟨_, this.1.symm, .inr ⟨text, mem.drop 15, d, rfl, h14, h0, hd,
            (C27_validate_iff _ _).mpr ⟨x, HwId.C24_round_trip x text hp, hmx⟩⟩⟩
        | throw ex =>
          rcases handler hx with hx | ⟨r, h1, h2⟩
          · exact .inl hx
          · exact .inr ⟨r, h1, .inl h2⟩
        | noMemory =>
          rcases handler hx with hx | ⟨r, h1, h2⟩
          · exact .inl hx
          · exact .inr ⟨r, h1, .inl h2⟩
        | ub =>
          simp only [Prod.mk.injEq] at hx
          exact .inl hx.1.symm
    · have : ((End.ok ⟨false, 20, some mem⟩, n) : End IdentifyResult × Nat) = (e, n') := hx
      simp only [Prod.mk.injEq] at this
      exact .inr ⟨_, this.1.symm, .inl ⟨rfl, rfl⟩⟩

theorem gives_catchAll {m : Memory} {α : Type} {x y : Scarce α} {a : α} (g : Gives m (catchAll x y) a) : Gives m x a ∨ Gives m y a := by
  obtain ⟨n, n', g⟩ := g
  unfold catchAll at g
  simp only at g
  cases hx : x.run m n with
  | mk e k =>
    rw [hx] at g
    cases e with
    | ok b => exact .inl ⟨n, k, by rw [hx]; simp only at g; rw [← (Prod.mk.inj g).1]⟩
    | throw ex => exact .inr ⟨k, n', g⟩
    | noMemory => exact .inr ⟨k, n', g⟩
    | ub => simp at g

theorem gives_dmiText {m : Memory} {x : Outcome Bytes} {t : Bytes} (g : Gives m (dmiText x) t) : x = .ok t ∨ t = [] := by
  rcases gives_catchAll g with g | g
  · obtain ⟨b, _, g⟩ := gives_bind g
    cases b with
    | true => exact .inl (gives_step g)
    | false => exact .inr (gives_pure g).symm
  · exact .inr (gives_pure g).symm

theorem gives_proc {m : Memory} {h : Host} {c : Container} (g : Gives m (checkContainerProc h) c) :
    ∃ ls, LinesLess h.cgroup ls ∧ c = (ls.map procLines).getD .none := by
  obtain ⟨o, g1, g⟩ := gives_bind g
  have e1 := gives_openDir g1
  cases o with
  | none => exact ⟨none, .inl rfl, (gives_pure g).symm⟩
  | some s =>
    obtain ⟨ls, g2, g⟩ := gives_bind (show Gives m (streamed (splitString s 10) >>= fun ls => pure (procLines ls)) c from g)
    refine ⟨some ls, .inr ⟨s, ls, ?_, gives_streamed g2, rfl⟩, (gives_pure g).symm⟩
    rcases e1 with e1 | e1
    · exact e1.symm
    · simp at e1

theorem gives_systemd {m : Memory} {h : Host} {c : Container} (g : Gives m (checkSystemdContainer h) c) :
    ∃ ls, LinesLess h.systemdContainer ls ∧ c = (ls.map systemdLines).getD .none := by
  obtain ⟨b, _, g⟩ := gives_bind g
  cases b with
  | false => exact ⟨none, .inl rfl, (gives_pure g).symm⟩
  | true =>
    cases hs : h.systemdContainer with
    | none => rw [hs] at g; exact ⟨none, .inl rfl, (gives_pure g).symm⟩
    | some s =>
      rw [hs] at g
      obtain ⟨ls, g2, g⟩ := gives_bind (show Gives m (streamed (splitString s 10) >>= fun ls => pure (systemdLines ls)) c from g)
      exact ⟨some ls, .inr ⟨s, ls, rfl, gives_streamed g2, rfl⟩, (gives_pure g).symm⟩

theorem gives_mkEnv {m : Memory} {h : Host} {e : Env} (g : Gives m (mkEnv h) e) : EnvLess h e := by
  replace g := gives_need g
  obtain ⟨dmi, g1, g⟩ := gives_bind g
  obtain ⟨c, g2, g⟩ := gives_bind g
  have := gives_pure g
  subst this
  obtain ⟨t1, a1, g1⟩ := gives_bind g1
  obtain ⟨t2, a2, g1⟩ := gives_bind g1
  obtain ⟨t3, a3, g1⟩ := gives_bind g1
  have := gives_pure g1
  subst this
  refine ⟨?_, gives_dmiText a2, gives_dmiText a3, rfl, rfl, ?_⟩
  · rcases gives_dmiText a1 with h | h
    · exact .inl (by simpa using h.symm)
    · exact .inr h
  · obtain ⟨c1, b1, b2⟩ := gives_bind g2
    obtain ⟨cg, d1, d2⟩ := gives_proc b1
    by_cases hn : c1 = .none
    · rw [if_pos hn] at b2
      obtain ⟨sd, d3, d4⟩ := gives_systemd b2
      refine ⟨cg, sd, d1, d3, ?_⟩
      show c = _
      rw [hn] at d2
      unfold containerOf
      cases cg with
      | none => exact d4
      | some ls =>
        simp only [Option.map_some, Option.getD_some] at d2
        simp only [Option.map_some, ← d2]
        exact d4
    · rw [if_neg hn] at b2
      have := gives_pure b2
      subst this
      refine ⟨cg, none, d1, .inl rfl, ?_⟩
      show c1 = _
      unfold containerOf
      cases cg with
      | none => simp at d2; exact absurd d2 hn
      | some ls =>
        simp only [Option.map_some, Option.getD_some] at d2
        simp only [Option.map_some, ← d2]
        cases c1 with
        | none => exact absurd rfl hn
        | docker => rfl
        | lxc => rfl

theorem noThrow_catchAll {α : Type} {x y : Scarce α} (hy : NoThrow y) : NoThrow (catchAll x y) := by
  intro m n n' e h
  unfold catchAll at h
  simp only at h
  cases hx : x.run m n with
  | mk r k =>
    rw [hx] at h
    cases r with
    | ok b => simp at h
    | throw ex => exact hy m k n' e h
    | noMemory => exact hy m k n' e h
    | ub => simp at h

theorem noThrow_mkEnv (h : Host) : NoThrow (mkEnv h) := by
  have dmi : ∀ x, NoThrow (dmiText x) := fun x => noThrow_catchAll (.pure _)
  refine .bind noThrow_need (fun _ => .bind (.bind (dmi _) (fun _ => .bind (dmi _) (fun _ => .bind (dmi _) (fun _ => .pure _))))
    (fun _ => .bind (.bind ?_ (fun c => ?_)) (fun _ => .pure _)))
  · refine .bind (.bind noThrow_request (fun _ => .pure _)) (fun o => ?_)
    cases o with
    | none => exact .pure _
    | some s => exact NoThrow.bind (x := streamed (splitString s 10)) noThrow_streamed (fun _ => .pure _)
  · split
    · refine .bind noThrow_opening (fun b => ?_)
      cases b with
      | false => exact .pure _
      | true =>
        simp only [if_true]
        cases h.systemdContainer with
        | none => exact .pure _
        | some s => exact NoThrow.bind (x := streamed (splitString s 10)) noThrow_streamed (fun _ => .pure _)
    · exact .pure _

/-- How `identify_pc` ends. -/
theorem identify_end {hk0 : Hooks} {near : Machine → Prop} (hs : Sees hk0 near) {EnvP : Env → Prop} (henv : ∀ m e, Gives m hk0.env e → EnvP e)
    (hthrow : NoThrow hk0.env) {cache : Option Env} {strategy : Int} {buf : Option Bytes} {size : Nat} {info : Bool} {memory : Memory}
    {n n' : Nat} {e : End (IdentifyResult × Option EnvInfo × Option Env)} (hbuf : ∀ mem, buf = some mem → size ≤ mem.length)
    (h : (identify hk0 cache strategy buf size info).run memory n = (e, n')) :
    e = .ub ∨ (e = .noMemory ∧ (cache = none ∨ info = true)) ∨ ∃ r i env, e = .ok (r, i, some env)
      ∧ ((r.ret = false ∧ r.buf = buf) ∨ ∃ text rest d, r = ⟨true, size, some (text ++ 0 :: rest)⟩ ∧ text.length = 14 ∧ 0 ∉ text
          ∧ near d ∧ Licensecc.validatePcSignature d text = .ok .licenseOk)
      ∧ (cache = some env ∨ (cache = none ∧ EnvP env))
      ∧ i = (if info then some ⟨cloudProvider env, virtualization hk0.host env, virtualizationDetail hk0.host env⟩ else none) := by
  unfold identify at h
  cases hr : (identifyPc hk0 strategy buf size).run memory n with
  | mk e1 k =>
    rw [run_bind hr] at h
    rcases identifyPc_end hs hbuf hr with rfl | ⟨r, rfl, hcases⟩
    · simp only [Prod.mk.injEq] at h
      exact .inl h.1.symm
    · simp only at h
      have last : ∀ {env : Env} {k : Nat}, (if info then step (.ok (r, some ⟨cloudProvider env, virtualization hk0.host env,
            virtualizationDetail hk0.host env⟩, some env)) else return (r, none, some env)
            : Scarce (IdentifyResult × Option EnvInfo × Option Env)).run memory k = (e, n') →
          (e = .noMemory ∧ info = true) ∨ e = .ok (r, (if info then some ⟨cloudProvider env, virtualization hk0.host env,
            virtualizationDetail hk0.host env⟩ else none), some env) := by
        intro env k hk
        cases info with
        | false =>
          have : ((End.ok (r, none, some env), k) : End (IdentifyResult × Option EnvInfo × Option Env) × Nat) = (e, n') := hk
          simp only [Prod.mk.injEq] at this
          exact .inr this.1.symm
        | true =>
          simp only [if_true] at hk
          cases hm : (need.run memory k) with
          | mk u k2 =>
            have hu : u = .ok () ∨ u = .noMemory := by
              have : ((if (memory k).isNone then End.ok () else .noMemory, k + 1) : End Unit × Nat) = (u, k2) := hm
              simp only [Prod.mk.injEq] at this
              rw [← this.1]
              split
              · exact .inl rfl
              · exact .inr rfl
            have hk' : (need >>= fun _ => plain (.ok (r, some ⟨cloudProvider env, virtualization hk0.host env,
              virtualizationDetail hk0.host env⟩, some env)) : Scarce (IdentifyResult × Option EnvInfo × Option Env)).run memory k
              = (e, n') := hk
            rw [run_bind hm] at hk'
            rcases hu with rfl | rfl
            · right
              have := congrArg Prod.fst hk'
              exact this.symm
            · left
              simp only [Prod.mk.injEq] at hk'
              exact ⟨hk'.1.symm, rfl⟩
      cases cache with
      | some env =>
        have h' : (pure env >>= fun env => if info then step (.ok (r, some ⟨cloudProvider env, virtualization hk0.host env,
            virtualizationDetail hk0.host env⟩, some env)) else return (r, none, some env)
            : Scarce (IdentifyResult × Option EnvInfo × Option Env)).run memory k = (e, n') := h
        rcases last h' with ⟨h1, h2⟩ | h1
        · exact .inr (.inl ⟨h1, .inr h2⟩)
        · exact .inr (.inr ⟨r, _, env, h1, hcases, .inl rfl, rfl⟩)
      | none =>
        have h' : (hk0.env >>= fun env => if info then step (.ok (r, some ⟨cloudProvider env, virtualization hk0.host env,
            virtualizationDetail hk0.host env⟩, some env)) else return (r, none, some env)
            : Scarce (IdentifyResult × Option EnvInfo × Option Env)).run memory k = (e, n') := h
        cases hm : hk0.env.run memory k with
        | mk u k2 =>
          rw [run_bind hm] at h'
          cases u with
          | ok env =>
            rcases last h' with ⟨h1, h2⟩ | h1
            · exact .inr (.inl ⟨h1, .inl rfl⟩)
            · exact .inr (.inr ⟨r, _, env, h1, hcases, .inr ⟨rfl, henv _ _ ⟨k, k2, hm⟩⟩, rfl⟩)
          | throw ex => exact absurd hm (hthrow _ _ _ _)
          | noMemory =>
            simp only [Prod.mk.injEq] at h'
            exact .inr (.inl ⟨h'.1.symm, .inl rfl⟩)
          | ub =>
            simp only [Prod.mk.injEq] at h'
            exact .inl h'.1.symm

/-- **C84**: whatever requests for memory are refused, `identify_pc` returns - unless it crashes, or the exception comes from the report on the
    execution environment -, and an identifier that it hands out is one of this machine, of which at most something was overlooked.
    The static object is not changed once it is there; built by this call, it lacks at most what was missed - for good. -/
theorem C84_identify {l : Linux} {cache : Option Env} {strategy : Int} {buf : Option Bytes} {size : Nat} {info : Bool} {memory : Memory}
    {n n' : Nat} {e : End (IdentifyResult × Option EnvInfo × Option Env)} (hbuf : ∀ mem, buf = some mem → size ≤ mem.length)
    (h : (identify (linuxHooks l) cache strategy buf size info).run memory n = (e, n')) :
    e = .ub ∨ (e = .noMemory ∧ (cache = none ∨ info = true)) ∨ ∃ r i env, e = .ok (r, i, some env)
      ∧ ((r.ret = false ∧ r.buf = buf) ∨ ∃ text rest disks, r = ⟨true, size, some (text ++ 0 :: rest)⟩ ∧ text.length = 14 ∧ 0 ∉ text
          ∧ DisksLess l.disks disks ∧ Licensecc.validatePcSignature { l with disks := disks }.world.machine text = .ok .licenseOk)
      ∧ (cache = some env ∨ (cache = none ∧ EnvLess l.host env))
      ∧ i = (if info then some ⟨cloudProvider env, virtualization l.host env, virtualizationDetail l.host env⟩ else none) := by
  rcases identify_end (sees_linux l) (EnvP := EnvLess l.host) (fun _ _ => gives_mkEnv) (noThrow_mkEnv _) hbuf h with
    h | h | ⟨r, i, env, h1, h2, h3⟩
  · exact .inl h
  · exact .inr (.inl h)
  · refine .inr (.inr ⟨r, i, env, h1, h2.imp id ?_, h3⟩)
    rintro ⟨text, rest, _, a1, a2, a3, ⟨disks, a4, rfl⟩, a5⟩
    exact ⟨text, rest, disks, a1, a2, a3, a4, a5⟩

/-! ## Cases -/

/-- One request is refused. -/
def refuseOnly (k j : Nat) : Memory := fun n => if n = k then some j else none

/-- What `acquire_license` returns. -/
def returned (x : End AcquireResult × Nat) : Option EventType :=
  match x.1 with
  | .ok r => some r.ret
  | _ => none

/-- Ended with `std::bad_alloc`. -/
def exhausted {α : Type} (x : End α × Nat) : Bool :=
  match x.1 with
  | .noMemory => true
  | _ => false

/-- Crashed. -/
def crashed {α : Type} (x : End α × Nat) : Bool :=
  match x.1 with
  | .ub => true
  | _ => false

/-- With enough memory the sample licence is accepted; so it is if the disk labels are missed. -/
theorem C84_sample_accepted :
    returned ((acquire sampleConfig (linuxHooks sampleLinux) (some sampleCaller) none none).run enough 0) = some .licenseOk
      ∧ returned ((acquire sampleConfig (linuxHooks sampleLinux) (some sampleCaller) none none).run (refuseOnly 32 0) 0) = some .licenseOk := by
  decide +kernel

/-- A genuine licence is refused as corrupted, as missing, or as one for other hardware, if a single request is refused at the wrong moment. -/
theorem C84_genuine_refused :
    returned ((acquire sampleConfig (linuxHooks sampleLinux) (some sampleCaller) none none).run (refuseOnly 16 0) 0) = some .corrupted
      ∧ returned ((acquire sampleConfig (linuxHooks sampleLinux) (some sampleCaller) none none).run (refuseOnly 3 0) 0) = some .fileNotFound
      ∧ returned ((acquire sampleConfig (linuxHooks sampleLinux) (some sampleCaller) none none).run (refuseOnly 25 0) 0)
        = some .identifiersMismatch := by
  decide +kernel

/-- The caller gets `std::bad_alloc`, or the process crashes in `parseUUID`. -/
theorem C84_exception_or_crash :
    exhausted ((acquire sampleConfig (linuxHooks sampleLinux) (some sampleCaller) none none).run (refuseOnly 9 0) 0) = true
      ∧ crashed ((acquire sampleConfig (linuxHooks sampleLinux) (some sampleCaller) none none).run (refuseOnly 27 0) 0) = true := by
  decide +kernel

/-- A list of files given by the caller of which nothing is read leaves no event behind, and the process crashes. -/
theorem C84_split_crash :
    crashed ((acquire { sampleConfig with nearModule := false } (linuxHooks sampleLinux) (some sampleCaller)
      (some ⟨0, b!"/opt/app.lic" ++ [0]⟩) none).run (refuseOnly 5 0) 0) = true := by
  decide +kernel

/-- A system whose OpenSSL confirms the signature in the licence for the first five bytes of the data only. -/
def prefixLinux : Linux :=
  { sampleLinux with
    ssl := { sampleLinux.ssl with digestFinal := fun d s => if d = boundData.take 5 ∧ s = b!"UJD" then 1 else 0 } }

/-- **C84**: the signature of a beginning is enough: a licence that is refused with enough memory is accepted if the data could not be put
    together completely.  The hypotheses of `C84_sound` are met. -/
theorem C84_prefix_accepted :
    returned ((acquire sampleConfig (linuxHooks prefixLinux) (some sampleCaller) none none).run enough 0) = some .corrupted
      ∧ returned ((acquire sampleConfig (linuxHooks prefixLinux) (some sampleCaller) none none).run (refuseOnly 10 5) 0)
        = some .licenseOk := by
  decide +kernel

/-- The provider told by `identify_pc`, and the static object afterwards. -/
def told (x : End (IdentifyResult × Option EnvInfo × Option Env) × Nat) : Option CloudProvider × Option Env :=
  match x.1 with
  | .ok (_, i, e) => (i.map (·.provider), e)
  | _ => (none, none)

/-- **C84**: a firmware text missed by the first call is missed by all later ones, however much memory they have. -/
theorem C84_missed_for_good :
    (told ((identify (linuxHooks sampleLinux) none (-1) none 0 true).run enough 0)).1 = some .onPremise
      ∧ (told ((identify (linuxHooks sampleLinux) none (-1) none 0 true).run (refuseOnly 3 0) 0)).1 = some .unknown
      ∧ (told ((identify (linuxHooks sampleLinux)
          (told ((identify (linuxHooks sampleLinux) none (-1) none 0 true).run (refuseOnly 3 0) 0)).2 (-1) none 0 true).run enough 0)).1
        = some .unknown := by
  decide +kernel

end Licensecc.Scarce
