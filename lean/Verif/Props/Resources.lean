import Verif.Lemmas.Resources
import Verif.Props.Linux
import Verif.Props.Windows
/-!
# Everything taken is given back (C72)
-/
namespace Licensecc.Resources
open Licensecc Spec

/-- The parts of a platform do what the model without resources says, are in order, and hold at most `c` things at a time. -/
structure Hooks.Good (e : LogEnv) (c : Nat) (h : Hooks) : Prop where
  pos : 1 ≤ c
  adapters : Does e c [] h.adapters h.world.machine.adapters
  disks : Does e c [] h.disks h.world.machine.disks
  exec : Does e c [] (exec h) h.world.machine.exec
  log : Does e c [] h.log (h.world.machine.logged (.ok ()))

variable {e : LogEnv} {c : Nat}

/-- The result is as said; everything is in order unless the result is a length error. -/
def Unless (e : LogEnv) (c : Nat) {α : Type} (u : Uses α) (x : Outcome α) : Prop :=
  (x ≠ .throw .lengthError → Does e c [] u x) ∧ ∀ s H, Inv e s → Compat H s → (u s).result = x

theorem Does.unless {α : Type} {u : Uses α} {x : Outcome α} (h : Does e c [] u x) : Unless e c u x :=
  ⟨fun _ => h, fun s H hi hc => (h s H hi hc (has_nil H)).1⟩

theorem Unless.seq {α β : Type} {u : Uses α} {x : Outcome α} {f : α → Uses β} {g : α → Outcome β} (hu : Unless e c u x)
    (hf : ∀ a, x = .ok a → Unless e c (f a) (g a)) : Unless e c (u >>= f) (x >>= g) := by
  have hone : (x >>= g) ≠ .throw .lengthError → Does e c [] (u >>= f) (x >>= g) := by
    intro hx
    refine (hu.1 fun h => hx (by rw [h]; rfl)).seq fun a ha => (hf a ha).1 fun h => hx (by rw [ha]; exact h)
  refine ⟨hone, fun s H hi hc => ?_⟩
  show (Uses.bind u f s).result = _
  have h1 := hu.2 s H hi hc
  unfold Uses.bind
  rw [h1]
  cases x with
  | ub => rfl
  | throw t => rfl
  | ok a =>
    obtain ⟨_, hrest⟩ := hu.1 (by simp) s H hi hc (has_nil H)
    obtain ⟨i1, i2, ⟨H1, i3, i4⟩, _⟩ := hrest (by simp)
    rw [drop_nil] at i4
    exact (hf a rfl).2 _ H1 i1 (compat_after hc i2 i4)

/-! ## The chain -/

theorem mstrlcpyLoop_no_throw : ∀ (n : Nat) (d s : Bytes) (t : Exn), mstrlcpyLoop n d s ≠ .throw t
  | _, [], _, t => by cases ‹Nat› <;> simp [mstrlcpyLoop]
  | 0, _ :: _, _, t => by simp [mstrlcpyLoop]
  | _ + 1, _ :: _, [], t => by simp [mstrlcpyLoop]
  | n + 1, _ :: ds, s :: ss, t => by
    have := mstrlcpyLoop_no_throw n ds ss
    rw [mstrlcpyLoop]
    split
    · simp
    · split <;> simp_all

theorem mstrlcpy_no_throw (d s : Bytes) (n : Nat) (t : Exn) : mstrlcpy d s n ≠ .throw t := by
  cases n with
  | zero => simp [mstrlcpy]
  | succ m =>
    have := mstrlcpyLoop_no_throw m d s
    rw [mstrlcpy]
    split <;> simp_all

theorem does_ethernet {h : Hooks} (hg : h.Good e c) (useIp : Bool) :
    Does e c [] (generateEthernetIds h useIp) (Licensecc.generateEthernetIds h.world.machine useIp) := by
  refine hg.adapters.seq fun a _ => ?_
  obtain ⟨r, as⟩ := a
  by_cases hr : r = .ok
  · by_cases hl : as.length = 0
    · simp only [hr, hl, ne_eq, not_true, if_true, if_false]; exact does_pure _
    · simp only [hr, hl, ne_eq, not_true, if_false]; exact does_pure _
  · simp only [hr, ne_eq, not_false_eq_true, if_true]; exact does_pure _

theorem does_disks {h : Hooks} (hg : h.Good e c) :
    Does e c [] (generateDiskIds h) (Licensecc.generateDiskIds h.world.machine) := by
  refine hg.disks.seq fun a _ => ?_
  obtain ⟨r, ds⟩ := a
  by_cases hr : r = .ok
  · by_cases hl : ds.length = 0
    · simp only [hr, hl, ne_eq, not_true, if_true, if_false]; exact does_pure _
    · simp only [hr, hl, ne_eq, not_true, if_false]; exact does_pure _
  · simp only [hr, ne_eq, not_false_eq_true, if_true]; exact does_pure _

theorem does_alternativeIds {h : Hooks} (hg : h.Good e c) (s : Strategy) :
    Does e c [] (alternativeIds h s) (Licensecc.alternativeIds h.world.machine s) := by
  have hm : ∀ (x : FuncRet × List Payload), Does e c [] (lift (makeIds s x)) (if x.1 = .ok then x.2.mapM (mkId s.code) else .ok []) :=
    fun x => does_lift _
  cases s with
  | default => exact does_pure _
  | ethernet => exact (does_ethernet hg false).seq fun x _ => hm x
  | ip => exact (does_ethernet hg true).seq fun x _ => hm x
  | disk => exact (does_disks hg).seq fun x _ => hm x

theorem does_validateIdentifier {h : Hooks} (hg : h.Good e c) (s : Strategy) (id : HwId) :
    Does e c [] (validateIdentifier h s id) (Licensecc.validateIdentifier h.world.machine s id) := by
  unfold validateIdentifier Licensecc.validateIdentifier
  split
  · exact does_pure _
  · split
    · exact (does_alternativeIds hg s).seq fun ids _ => does_pure _
    · exact does_pure _

theorem does_log_then {h : Hooks} (hg : h.Good e c) {α : Type} (a : α) :
    Does e c [] (do h.log; return a) (h.world.machine.logged (.ok a)) := by
  have := hg.log.seq (f := fun _ => pure a) (g := fun _ => .ok a) fun _ _ => does_pure a
  have heq : (h.world.machine.logged (.ok ()) >>= fun _ => .ok a) = h.world.machine.logged (.ok a) := by
    unfold Machine.logged
    split <;> rfl
  rw [heq] at this
  exact this

theorem does_validate {h : Hooks} (hg : h.Good e c) (code : Bytes) :
    Does e c [] (validatePcSignature h code) (Licensecc.validatePcSignature h.world.machine code) := by
  have hb : Does e c [] (do
      let id ← lift (HwId.ofString code)
      let s ← lift (getStrategy id.strategy)
      validateIdentifier h s id) (do
      let id ← HwId.ofString code
      let s ← getStrategy id.strategy
      Licensecc.validateIdentifier h.world.machine s id) :=
    (does_lift _).seq fun id _ => (does_lift _).seq fun s _ => does_validateIdentifier hg s id
  have := hb.catching (p := Exn.isLogicError) (does_log_then hg EventType.identifiersMismatch)
  unfold Licensecc.validatePcSignature
  dsimp only
  generalize (do
      let id ← HwId.ofString code
      let s ← getStrategy id.strategy
      Licensecc.validateIdentifier h.world.machine s id : Outcome EventType) = x at this
  cases x <;> exact this

theorem does_generateFirst {h : Hooks} (hg : h.Good e c) (s : Strategy) :
    Does e c [] (generateFirst h s) (Licensecc.generateFirst h.world.machine s) :=
  (does_alternativeIds hg s).seq fun _ _ => does_pure _

theorem does_tryStrategies {h : Hooks} (hg : h.Good e c) : ∀ ns : List Int,
    Does e c [] (tryStrategies h ns) (Licensecc.tryStrategies h.world.machine ns)
  | [] => does_pure _
  | n :: ns => by
    refine (does_lift _).seq fun s _ => (does_generateFirst hg s).seq fun o _ => ?_
    cases o with
    | some id => exact does_pure _
    | none => exact does_tryStrategies hg ns

theorem does_generatePcId {h : Hooks} (hg : h.Good e c) (s : Strategy) :
    Does e c [] (generatePcId h s) (Licensecc.generatePcId h.world.machine s) := by
  cases s with
  | default => exact hg.exec.seq fun x _ => does_tryStrategies hg _
  | ethernet => exact does_generateFirst hg _
  | ip => exact does_generateFirst hg _
  | disk => exact does_generateFirst hg _

theorem does_generateUser {h : Hooks} (hg : h.Good e c) (strategy : Int) :
    Does e c [] (generateUserPcSignature h strategy) (Licensecc.generateUserPcSignature h.world.machine strategy) := by
  refine Does.seq ?_ fun _ _ => (does_lift _).seq fun s _ => (does_generatePcId hg s).seq fun o _ => ?_
  · unfold warnUnknown Machine.warnUnknown
    split
    · exact hg.log
    · exact does_pure _
  · cases o with
    | none => exact does_lift _
    | some id => exact does_lift _

theorem does_identifyPc {h : Hooks} (hg : h.Good e c) (strategy : Int) (buf : Option Bytes) (size : Nat) :
    Does e c [] (identifyPc h strategy buf size) (Licensecc.identifyPc h.world.machine strategy buf size) := by
  cases buf with
  | none => exact does_pure _
  | some mem =>
    unfold identifyPc Licensecc.identifyPc
    dsimp only
    split
    · have hb := (does_generateUser hg strategy).seq (f := fun id => do
          let (mem', _) ← lift (mstrlcpy mem (id ++ [0]) size)
          return (⟨true, size, some mem'⟩ : IdentifyResult)) (g := fun id => do
          let (mem', _) ← mstrlcpy mem (id ++ [0]) size
          return ⟨true, size, some mem'⟩) fun id _ => (does_lift _).seq fun x _ => does_pure _
      have := hb.catching (p := fun _ => true) (does_log_then hg (⟨false, size, some mem⟩ : IdentifyResult))
      cases hgen : Licensecc.generateUserPcSignature h.world.machine strategy with
      | ub => rw [hgen] at this; exact this
      | throw t => rw [hgen] at this; exact this
      | ok id =>
        rw [hgen] at this
        cases hcp : mstrlcpy mem (id ++ [0]) size with
        | ub => simp only [Outcome.ok_bind, hcp] at this ⊢; exact this
        | throw t => exact absurd hcp (mstrlcpy_no_throw _ _ _ t)
        | ok x => simp only [Outcome.ok_bind, hcp] at this ⊢; exact this
    · exact does_pure _

theorem does_filter (hc : 1 ≤ c) (w : World) (extra : Bytes) : ∀ (r : Registry) (ps : List Bytes),
    Does e c [] (filterExistingFiles w extra r ps) (Licensecc.filterExistingFiles w extra r ps)
  | r, [] => does_pure _
  | r, p :: ps => by
    rw [filterExistingFiles, Licensecc.filterExistingFiles]
    refine (does_lift _).seq fun r1 _ => ?_
    split
    · exact Does.seq (Does.during (c' := 0) (by simp) (does_lift _) (by omega)) fun r2 _ => (does_filter hc w extra r2 ps).seq fun x _ => does_pure _
    · exact Does.seq (Does.during (c' := 0) (by simp) (does_lift _) (by omega)) fun r2 _ => does_filter hc w extra r2 ps

theorem does_getFileContents (hc : 1 ≤ c) (w : World) (path : Bytes) (max : Nat) :
    Does e c [] (getFileContents w path max) (Licensecc.getFileContents w path max) :=
  Does.during (c' := 0) (by simp) (does_lift _) (by omega)

theorem does_licenseLocations {h : Hooks} (hg : h.Good e c) (l : Locator) (r : Registry) :
    Does e c [] (licenseLocations h l r) (Licensecc.licenseLocations h.world l r) := by
  cases l with
  | applicationFolder =>
    unfold licenseLocations Licensecc.licenseLocations
    dsimp only
    cases h.world.moduleName with
    | none => exact does_log_then hg _
    | some m =>
      dsimp only
      split
      · exact Does.during (c' := 0) (by simp) ((does_lift _).seq fun _ _ => does_pure _) (by have := hg.pos; omega)
      · exact Does.during (c' := 0) (by simp) ((does_lift _).seq fun _ _ => does_pure _) (by have := hg.pos; omega)
  | environmentVarLocation =>
    unfold licenseLocations Licensecc.licenseLocations
    dsimp only
    cases h.world.getenv locationVar with
    | none => exact (does_lift _).seq fun _ _ => does_pure _
    | some v =>
      cases v with
      | nil => exact (does_lift _).seq fun _ _ => does_pure _
      | cons c v => exact (does_filter hg.pos _ _ _ _).seq fun _ _ => does_pure _
  | environmentVarData => exact does_lift _
  | externalDefinition loc =>
    unfold licenseLocations Licensecc.licenseLocations
    dsimp only
    cases loc.data with
    | nil => exact does_lift _
    | cons c v =>
      dsimp only
      split
      · exact does_pure _
      · refine (does_lift _).seq fun r1 _ => ?_
        split
        · exact (does_lift _).seq fun d _ => (does_filter hg.pos _ _ _ _).seq fun _ _ => does_pure _
        · split
          · exact does_pure _
          · exact does_lift _

theorem does_retrieve (hc : 1 ≤ c) (w : World) (l : Locator) (b : Bool) (src : Bytes) :
    Does e c [] (retrieveContent w l b src) (Licensecc.retrieveContent w l b src) := by
  cases l with
  | applicationFolder => exact does_getFileContents hc _ _ _
  | environmentVarLocation => exact does_getFileContents hc _ _ _
  | environmentVarData => exact does_lift _
  | externalDefinition loc =>
    unfold retrieveContent
    dsimp only
    split
    · exact does_lift _
    · rename_i hne
      have : Licensecc.retrieveContent w (.externalDefinition loc) b src = Licensecc.getFileContents w src maxLicenseData := by
        unfold Licensecc.retrieveContent
        dsimp only
        rw [if_neg hne]
      rw [this]
      exact does_getFileContents hc _ _ _

theorem does_readLocations (hc : 1 ≤ c) (w : World) (feature : Bytes) (l : Locator) (b : Bool) : ∀ (r : Registry) (ls : List Bytes),
    Does e c [] (readLocations w feature l b r ls) (Licensecc.readLocations w feature l b r ls)
  | r, [] => does_pure _
  | r, src :: rest => (does_retrieve hc w l b src).seq fun _ _ => (does_lift _).seq fun x _ =>
    (does_readLocations hc w feature l b x.1 rest).seq fun _ _ => does_pure _

theorem does_readLocators {h : Hooks} (hg : h.Good e c) (feature : Bytes) : ∀ (r : Registry) (ls : List Locator),
    Does e c [] (readLocators h feature r ls) (Licensecc.readLocators h.world feature r ls)
  | r, [] => does_pure _
  | r, l :: ls => (does_licenseLocations hg l r).seq fun x _ => (does_readLocations hg.pos h.world feature l x.2.2 x.1 x.2.1).seq fun y _ =>
    (does_readLocators hg feature y.1 ls).seq fun _ _ => does_pure _

theorem does_readLicenses {h : Hooks} (hg : h.Good e c) (cfg : Config) (hint : Option LicenseLocation) (feature : Bytes) :
    Does e c [] (readLicenses cfg h hint feature) (Licensecc.readLicenses cfg h.world hint feature) := by
  unfold readLicenses
  split
  · exact does_lift _
  · rename_i hne
    have : Licensecc.readLicenses cfg h.world hint feature = (Licensecc.readLocators h.world feature (Registry.empty h.world.platform)
      (activeStrategies cfg hint) >>= afterReading) := by
      unfold Licensecc.readLicenses
      dsimp only
      rw [if_neg hne]
      rfl
    rw [this]
    exact (does_readLocators hg _ _ _).seq fun x _ => does_lift _

theorem does_checkClient {h : Hooks} (hg : h.Good e c) (lic : FullLicense) (r : Registry) :
    Does e c [] (checkClient h lic r) (Licensecc.checkClient h.world lic r) := by
  unfold checkClient Licensecc.checkClient
  cases SMap.find? kClient lic.limits with
  | none => exact does_pure _
  | some s => exact (does_validate hg s).seq fun _ _ => (does_lift _).seq fun _ _ => does_pure _

theorem does_verifyLimits {h : Hooks} (hg : h.Good e c) (cfg : Config) (lic : FullLicense) (r : Registry) (k : Nat) :
    Does e c [] (verifyLimits cfg h lic r k) (Licensecc.verifyLimits cfg h.world lic r k) := by
  unfold verifyLimits Licensecc.verifyLimits
  dsimp only
  split
  · refine (does_lift _).seq fun x _ => ?_
    obtain ⟨r1, v1⟩ := x
    dsimp only
    split
    · refine (does_lift _).seq fun x _ => ?_
      obtain ⟨r2, v2⟩ := x
      dsimp only
      split
      · exact (does_checkClient hg _ _).seq fun _ _ => does_pure _
      · exact does_pure _
    · exact does_pure _
  · exact (does_lift _).seq fun _ _ => does_pure _

theorem does_verifySignature {h : Hooks} (_hg : h.Good e c) (hv : ∀ data sig, Does e c [] (h.verify data sig) (h.world.verify data sig)) (lic : FullLicense) (r : Registry) :
    Does e c [] (verifySignature h lic r) (Licensecc.verifySignature h.world lic r) :=
  (hv _ _).seq fun _ _ => (does_lift _).seq fun _ _ => does_pure _

theorem does_judgeLoop {h : Hooks} (hg : h.Good e c) (hv : ∀ data sig, Does e c [] (h.verify data sig) (h.world.verify data sig)) (cfg : Config) (caller : Option Caller) : ∀ (r : Registry) (k : Nat) (ls : List FullLicense),
    Does e c [] (judgeLoop cfg h caller r k ls) (Licensecc.judgeLoop cfg h.world caller r k ls)
  | r, k, [] => does_pure _
  | r, k, l :: ls => by
    rw [judgeLoop, Licensecc.judgeLoop]
    refine (does_verifySignature hg hv _ _).seq fun x _ => (does_lift _).seq fun y _ => ?_
    obtain ⟨r1, good⟩ := x
    obtain ⟨info, k1⟩ := y
    dsimp only
    split
    · exact (does_verifyLimits hg _ _ _ _).seq fun z _ => (does_judgeLoop hg hv cfg caller z.1 z.2.1 ls).seq fun _ _ => does_pure _
    · exact (does_judgeLoop hg hv cfg caller r1 k1 ls).seq fun _ _ => does_pure _

theorem does_judge {h : Hooks} (hg : h.Good e c) (hv : ∀ data sig, Does e c [] (h.verify data sig) (h.world.verify data sig)) (cfg : Config) (caller : Option Caller) (out : Option LicInfo) (r : Registry)
    (ls : List FullLicense) : Does e c [] (judge cfg h caller out r ls) (Licensecc.judge cfg h.world caller out r ls) := by
  cases ls with
  | nil => exact does_lift _
  | cons l ls =>
    have : Licensecc.judge cfg h.world caller out r (l :: ls) = (Licensecc.judgeLoop cfg h.world caller r 0 (l :: ls) >>= afterJudging h.world out) := by
      unfold Licensecc.judge
      dsimp only
      congr 1
    rw [this]
    exact (does_judgeLoop hg hv _ _ _ _ _).seq fun x _ => does_lift _

theorem does_acquire {h : Hooks} (hg : h.Good e c) (hv : ∀ data sig, Does e c [] (h.verify data sig) (h.world.verify data sig)) (cfg : Config) (caller : Option Caller) (hint : Option LicenseLocation)
    (out : Option LicInfo) : Does e c [] (acquire cfg h caller hint out) (Licensecc.acquire cfg h.world caller hint out) :=
  (does_lift _).seq fun _ _ => (does_readLicenses hg _ _ _).seq fun _ _ => does_judge hg hv _ _ _ _ _

theorem unless_verifySignature {h : Hooks} (_hg : h.Good e c) (hv : ∀ data sig, Unless e c (h.verify data sig) (h.world.verify data sig)) (lic : FullLicense) (r : Registry) :
    Unless e c (verifySignature h lic r) (Licensecc.verifySignature h.world lic r) :=
  (hv _ _).seq fun _ _ => (does_lift _).unless.seq fun _ _ => (does_pure _).unless

theorem unless_judgeLoop {h : Hooks} (hg : h.Good e c) (hv : ∀ data sig, Unless e c (h.verify data sig) (h.world.verify data sig)) (cfg : Config) (caller : Option Caller) : ∀ (r : Registry) (k : Nat) (ls : List FullLicense),
    Unless e c (judgeLoop cfg h caller r k ls) (Licensecc.judgeLoop cfg h.world caller r k ls)
  | r, k, [] => (does_pure _).unless
  | r, k, l :: ls => by
    rw [judgeLoop, Licensecc.judgeLoop]
    refine (unless_verifySignature hg hv _ _).seq fun x _ => (does_lift _).unless.seq fun y _ => ?_
    obtain ⟨r1, good⟩ := x
    obtain ⟨info, k1⟩ := y
    dsimp only
    split
    · exact (does_verifyLimits hg _ _ _ _).unless.seq fun z _ => (unless_judgeLoop hg hv cfg caller z.1 z.2.1 ls).seq fun _ _ => (does_pure _).unless
    · exact (unless_judgeLoop hg hv cfg caller r1 k1 ls).seq fun _ _ => (does_pure _).unless

theorem unless_judge {h : Hooks} (hg : h.Good e c) (hv : ∀ data sig, Unless e c (h.verify data sig) (h.world.verify data sig)) (cfg : Config) (caller : Option Caller) (out : Option LicInfo) (r : Registry)
    (ls : List FullLicense) : Unless e c (judge cfg h caller out r ls) (Licensecc.judge cfg h.world caller out r ls) := by
  cases ls with
  | nil => exact (does_lift _).unless
  | cons l ls =>
    have : Licensecc.judge cfg h.world caller out r (l :: ls) = (Licensecc.judgeLoop cfg h.world caller r 0 (l :: ls) >>= afterJudging h.world out) := by
      unfold Licensecc.judge
      dsimp only
      congr 1
    rw [this]
    exact (unless_judgeLoop hg hv _ _ _ _ _).seq fun x _ => (does_lift _).unless

theorem unless_acquire {h : Hooks} (hg : h.Good e c) (hv : ∀ data sig, Unless e c (h.verify data sig) (h.world.verify data sig)) (cfg : Config) (caller : Option Caller) (hint : Option LicenseLocation)
    (out : Option LicInfo) : Unless e c (acquire cfg h caller hint out) (Licensecc.acquire cfg h.world caller hint out) :=
  (does_lift _).unless.seq fun _ _ => (does_readLicenses hg _ _ _).unless.seq fun _ _ => unless_judge hg hv _ _ _ _ _

theorem does_identify {h : Hooks} (hg : h.Good e c) {x : Outcome Env} (he : Does e c [] h.env x) (cache : Option Env) (strategy : Int)
    (buf : Option Bytes) (size : Nat) (info : Bool) :
    Does e c [] (identify h cache strategy buf size info) (do
      let r ← Licensecc.identifyPc h.world.machine strategy buf size
      let v ← match cache with
        | some v => .ok v
        | none => x
      return (r, if info then some ⟨cloudProvider v, virtualization h.host v, virtualizationDetail h.host v⟩ else none, some v)) := by
  refine (does_identifyPc hg strategy buf size).seq fun r _ => ?_
  cases cache with
  | some v => exact does_pure _
  | none => exact he.seq fun v _ => does_pure _

/-! ## Linux -/

theorem uses_bind_assoc {α β γ : Type} (u : Uses α) (f : α → Uses β) (g : β → Uses γ) : ((u >>= f) >>= g) = (u >>= fun a => f a >>= g) := by
  funext s
  show Uses.bind (Uses.bind u f) g s = Uses.bind u (fun a => Uses.bind (f a) g) s
  unfold Uses.bind
  cases (u s).result with
  | ok a =>
    dsimp only
    cases (f a (u s).store).result <;> simp
  | throw t => rfl
  | ub => rfl

theorem does_free_none {c p : Nat} {β : Type} {f : Unit → Uses β} {x : Outcome β} (hc : 1 ≤ c) (hf : Does e c [] (f ()) x) :
    Does e c [(p, .pkey)] (freeResources (some p) none >>= f) x := by
  unfold freeResources
  rw [uses_bind_assoc]
  exact does_give (A' := []) (List.Perm.refl _) (by simpa using hc) hf

theorem does_free_some {c p d : Nat} {β : Type} {f : Unit → Uses β} {x : Outcome β} (hc : 2 ≤ c) (hf : Does e c [] (f ()) x) :
    Does e c [(d, .digest), (p, .pkey)] (freeResources (some p) (some d) >>= f) x := by
  unfold freeResources
  rw [uses_bind_assoc]
  exact does_give (A' := [(d, .digest)]) (List.Perm.swap _ _ _) (by simpa using hc) (does_give (A' := []) (List.Perm.refl _) (by simp; omega) hf)

/-- What logging gives. -/
def logResult (b : Bool) : Outcome Unit := if b then .ub else .ok ()

theorem logResult_no_throw (b : Bool) (t : Exn) : logResult b ≠ .throw t := by cases b <;> simp [logResult]

theorem fail_eq (o : OpenSsl) : o.fail = (logResult o.logOverruns >>= fun _ => .ok false) := by
  unfold OpenSsl.fail logResult
  cases o.logOverruns <;> rfl

theorem does_verifyDigest {logging : Uses Unit} (o : OpenSsl) (hl : Does e 1 [] logging (logResult o.logOverruns)) (data d : Bytes) (p : Nat) :
    Does e 3 [(p, .pkey)] (verifyDigest logging o data d p) (if o.contextCreated = false then o.fail
      else if o.digestInit = false then o.fail
      else if o.digestUpdate data ≠ 1 then o.fail
      else if o.digestFinal data d = 1 then .ok true
      else o.fail) := by
  refine does_takeIf (by simp) (by simp) (fun hb n _ => ?_) (fun hb => ?_)
  · rw [if_neg (show ¬some n = none by simp), if_neg (show ¬o.contextCreated = false by simp [hb])]
    by_cases h1 : o.digestInit = false
    · rw [if_pos h1, if_pos h1, fail_eq]
      exact hl.bind (by simp) (.inr (logResult_no_throw _)) fun _ _ => does_free_some (by simp) (does_pure _)
    · rw [if_neg h1, if_neg h1]
      by_cases h2 : o.digestUpdate data ≠ 1
      · rw [if_pos h2, if_pos h2, fail_eq]
        exact hl.bind (by simp) (.inr (logResult_no_throw _)) fun _ _ => does_free_some (by simp) (does_pure _)
      · rw [if_neg h2, if_neg h2]
        by_cases h3 : o.digestFinal data d = 1
        · rw [if_pos h3]
          simp only [h3, decide_true]
          show Does e 3 _ (do freeResources (some p) (some n); return true) _
          exact does_free_some (c := 3) (by simp) (does_pure _)
        · rw [if_neg h3, fail_eq]
          simp only [h3, decide_false]
          exact hl.bind (by simp) (.inr (logResult_no_throw _)) fun _ _ => does_free_some (by simp) (does_pure _)
  · rw [if_pos hb, if_pos rfl, fail_eq]
    exact does_free_none (by omega) ((hl.mono (by simp)).seq fun _ _ => does_pure _)

theorem does_verify {logging : Uses Unit} (o : OpenSsl) (hl : Does e 1 [] logging (logResult o.logOverruns)) (data sig : Bytes) :
    Does e 3 [] (verify logging o data sig) (o.verify data sig) := by
  unfold OpenSsl.verify
  refine does_take (by simp) (by simp) fun bio _ => does_takeIf (by simp) (by simp) (fun hb rsa _ => ?_) (fun hb => ?_)
  · refine does_give (A' := [(rsa, .rsa)]) (List.Perm.swap _ _ _) (by simp) ?_
    rw [if_neg (by simp [hb])]
    refine does_take (by simp) (by simp) fun pkey _ => does_give (A' := [(pkey, .pkey)]) (List.Perm.swap _ _ _) (by simp) ?_
    refine does_take (by simp) (by simp) fun b64 _ => does_take (by simp) (by simp) fun enc _ => ?_
    cases o.bioRead sig with
    | none => exact does_lift_ub
    | some d =>
      dsimp only
      split
      · exact does_lift_ub
      · refine does_give (A' := [(enc, .bio), (pkey, .pkey)]) (List.Perm.swap _ _ _) (by simp) ?_
        exact does_give (A' := [(pkey, .pkey)]) (List.Perm.refl _) (by simp) (does_verifyDigest o hl data d pkey)
  · rw [if_pos hb, fail_eq]
    exact does_give (A' := []) (List.Perm.refl _) (by simp) ((hl.mono (by simp)).seq fun _ _ => does_pure _)

theorem does_adapters {logging : Uses Unit} {b : Bool} (hl : Does e 1 [] logging (logResult b)) (h : NetHost) :
    Does e 3 [] (getAdapterInfos logging h) (if h.ifaddrs = none ∧ b then .ub else .ok (Licensecc.getAdapterInfos h)) := by
  unfold getAdapterInfos
  cases h.ifaddrs with
  | none =>
    have := (hl.mono (c' := 3) (by simp)).seq (f := fun _ => pure (Licensecc.getAdapterInfos h)) (g := fun _ => .ok (Licensecc.getAdapterInfos h))
      fun _ _ => does_pure _
    cases b with
    | false => exact this
    | true => exact this
  | some es =>
    simp only [reduceCtorEq, false_and, if_false]
    exact does_take (by simp) (by simp) fun n _ => does_give (A' := []) (List.Perm.refl _) (by simp) (does_pure _)

theorem parseUuid_no_throw (u : Bytes) (t : Exn) : Licensecc.parseUuid u ≠ .throw t := by
  unfold Licensecc.parseUuid
  dsimp only
  repeat' split
  all_goals simp

theorem does_parseUuid (u : Bytes) : Does e 1 [] (parseUuid u) (Licensecc.parseUuid u) := by
  refine does_take (by simp) (by simp) fun n _ => ?_
  have := Does.bind (A := [(n, Kind.block)]) (c := 1) (does_lift (e := e) (c := 0) (Licensecc.parseUuid u)) (by simp) (.inr (parseUuid_no_throw u))
    (f := fun sn => do give n .block; return sn) (g := fun sn => .ok sn) fun sn _ =>
      does_give (A' := []) (List.Perm.refl _) (by simp) (does_pure sn)
  have heq : (Licensecc.parseUuid u >>= fun sn => .ok sn) = Licensecc.parseUuid u := by cases Licensecc.parseUuid u <;> rfl
  rw [heq] at this
  exact this

theorem does_addUuidEntry (x : UuidEntry) (ds : List Disk) (m : UuidMap) :
    Does e 1 [] (addUuidEntry x ds m) (Licensecc.addUuidEntry x ds m) := by
  unfold addUuidEntry Licensecc.addUuidEntry
  split
  · exact does_pure _
  · cases x.inode with
    | none => exact does_pure _
    | some ino =>
      cases x.link with
      | none => exact does_pure _
      | some link => exact (does_parseUuid _).seq fun sn _ => does_pure _

theorem does_uuidLoop : ∀ (es : List UuidEntry) (ds : List Disk) (m : UuidMap),
    Does e 1 [] (uuidLoop es ds m) (Licensecc.uuidLoop es ds m)
  | [], ds, m => does_pure _
  | x :: es, ds, m => by
    rw [uuidLoop, Licensecc.uuidLoop]
    split
    · exact (does_addUuidEntry x ds m).seq fun y _ => does_uuidLoop es y.1 y.2
    · exact does_pure _

theorem uuidLoop_no_throw : ∀ (es : List UuidEntry) (ds : List Disk) (m : UuidMap) (t : Exn), Licensecc.uuidLoop es ds m ≠ .throw t
  | [], ds, m, t => by simp [Licensecc.uuidLoop]
  | x :: es, ds, m, t => by
    intro h
    rw [Licensecc.uuidLoop] at h
    split at h
    · rcases Outcome.bind_eq_throw.mp h with h | ⟨y, _, h⟩
      · unfold Licensecc.addUuidEntry at h
        split at h
        · simp at h
        · split at h
          · rcases Outcome.bind_eq_throw.mp h with h | ⟨_, _, h⟩
            · exact parseUuid_no_throw _ _ h
            · simp at h
          · simp at h
      · exact uuidLoop_no_throw es _ _ _ h
    · simp at h

theorem does_readDiskLabels (h : DiskHost) (ds : List Disk) :
    Does e 1 [] (readDiskLabels h ds) (.ok (Licensecc.readDiskLabels h ds)) := by
  refine does_takeIf (c := 1) (by simp) (by simp) (fun _ n _ => ?_) (fun _ => ?_)
  · show Does e 1 [(n, .dir)] (do give n .dir; return Licensecc.readDiskLabels h ds) _
    exact does_give (c := 1) (A' := []) (List.Perm.refl _) (by simp) (does_pure _)
  · refine does_takeIf (c := 1) (by simp) (by simp) (fun _ n _ => ?_) (fun _ => ?_)
    · exact does_give (c := 1) (A' := []) (List.Perm.refl _) (by simp) (does_pure _)
    · exact does_pure _

/-- The first part of `getDiskInfos_dev` without resources. -/
def uuidsOf (h : DiskHost) : Outcome (List Disk × UuidMap) :=
  match h.byUuid with
  | some es => Licensecc.uuidLoop es [] []
  | none => .ok ([], [])

theorem does_readUuids (h : DiskHost) : Does e 2 [] (readUuids h) (uuidsOf h) := by
  unfold readUuids uuidsOf
  cases h.byUuid with
  | none => exact does_pure _
  | some es =>
    refine does_take (by simp) (by simp) fun n _ => ?_
    have := Does.bind (A := [(n, Kind.dir)]) (c := 2) (does_uuidLoop (e := e) es [] []) (by simp) (.inr (uuidLoop_no_throw es [] []))
      (f := fun x => do give n .dir; return x) (g := fun x => .ok x) fun x _ =>
        does_give (A' := []) (List.Perm.refl _) (by simp) (does_pure x)
    have heq : (Licensecc.uuidLoop es [] [] >>= fun x => .ok x) = Licensecc.uuidLoop es [] [] := by cases Licensecc.uuidLoop es [] [] <;> rfl
    rw [heq] at this
    exact this

theorem does_getDiskInfosDev (h : DiskHost) : Does e 2 [] (getDiskInfosDev h) (Licensecc.getDiskInfosDev h) := by
  have heq : Licensecc.getDiskInfosDev h = (uuidsOf h >>= fun x =>
      .ok (if x.1.length > 0 then FuncRet.ok else .notAvail, Licensecc.readDiskLabels h x.1, x.2)) := by
    unfold Licensecc.getDiskInfosDev uuidsOf
    cases h.byUuid <;> rfl
  rw [heq]
  refine (does_readUuids h).seq fun x _ => ?_
  obtain ⟨ds, m⟩ := x
  exact ((does_readDiskLabels h ds).mono (by simp)).then (does_pure _)

theorem does_blkidDevice (cur : Bytes) (n : Nat) : Does e 2 [] (blkidDevice cur n) (Licensecc.blkidDevice cur n) :=
  (does_lift _).seq fun _ _ => (does_lift _).seq fun _ _ => ((does_parseUuid _).mono (by simp)).seq fun _ _ => (does_lift _).seq fun _ _ => does_pure _

theorem does_blkidLoop : ∀ (s win : Bytes) (pos n : Nat) (ds : List Disk) (m : UuidMap),
    Does e 2 [] (blkidLoop win pos n ds m s) (Licensecc.blkidLoop win pos n ds m s)
  | [], _, _, _, _, _ => does_pure _
  | c :: s, win, pos, n, ds, m => by
    rw [blkidLoop, Licensecc.blkidLoop]
    split
    · exact (does_blkidDevice _ _).seq fun x _ => does_blkidLoop s _ _ _ _ _
    · exact does_blkidLoop s _ _ _ _ _

theorem does_parseBlkid (c : Bytes) (ds : List Disk) (m : UuidMap) :
    Does e 2 [] (parseBlkid c ds m) (Licensecc.parseBlkid c ds m) := (does_blkidLoop _ _ _ _ _ _).seq fun _ _ => does_pure _

theorem does_getDiskInfosBlkid (h : DiskHost) (ds : List Disk) (m : UuidMap) :
    Does e 2 [] (getDiskInfosBlkid h ds m) (Licensecc.getDiskInfosBlkid h ds m) := by
  unfold getDiskInfosBlkid Licensecc.getDiskInfosBlkid
  refine Does.then (Does.during (c' := 0) (by simp) (does_pure h.blkidRun) (by simp)) ?_
  cases h.blkidRun with
  | some c => exact does_parseBlkid _ _ _
  | none =>
    refine Does.then (Does.during (c' := 0) (by simp) (does_pure h.blkidEtc) (by simp)) ?_
    cases h.blkidEtc with
    | some c => exact does_parseBlkid _ _ _
    | none => exact does_pure _

theorem markEntries_no_throw (m : UuidMap) : ∀ (es : List Bytes) (ds : List Disk) (t : Exn), markEntries m es ds ≠ .throw t
  | [], ds, t => by simp [markEntries]
  | a :: es, ds, t => by
    intro h
    simp only [markEntries] at h
    rcases Outcome.bind_eq_throw.mp h with h | ⟨x, _, h⟩
    · unfold markEntry at h
      split at h
      · split at h <;> simp at h
      · split at h
        · exact markLabel_no_throw _ _ _ h
        · simp at h
    · exact markEntries_no_throw m es _ _ h

theorem does_setPreferred (h : DiskHost) (ds : List Disk) (m : UuidMap) :
    Does e 2 [] (setPreferredDisks h ds m) (Licensecc.setPreferredDisks h ds m) := by
  unfold setPreferredDisks Licensecc.setPreferredDisks
  cases h.fstab with
  | none => exact does_pure _
  | some es =>
    refine does_take (by simp) (by simp) fun n _ => ?_
    have := Does.bind (A := [(n, Kind.mntent)]) (c := 2) (does_lift (e := e) (c := 0) (markEntries m es ds)) (by simp)
      (.inr (markEntries_no_throw m es ds)) (f := fun x => do give n .mntent; return x) (g := fun x => .ok x) fun x _ =>
        does_give (A' := []) (List.Perm.refl _) (by simp) (does_pure x)
    have heq : (markEntries m es ds >>= fun x => .ok x) = markEntries m es ds := by cases markEntries m es ds <;> rfl
    rw [heq] at this
    exact this

theorem does_getDiskInfos (h : DiskHost) : Does e 2 [] (getDiskInfos h) (Licensecc.getDiskInfos h) := by
  refine (does_getDiskInfosDev h).seq fun x _ => ?_
  obtain ⟨r, ds, m⟩ := x
  have hlast : ∀ y : FuncRet × List Disk × UuidMap, Does e 2 []
      (if y.1 = .ok then do
        let ds ← setPreferredDisks h y.2.1 y.2.2
        return (y.1, ds)
      else return (y.1, y.2.1)) (if y.1 = .ok then do
        let ds ← Licensecc.setPreferredDisks h y.2.1 y.2.2
        return (y.1, ds)
      else return (y.1, y.2.1)) := by
    intro y
    split
    · exact (does_setPreferred _ _ _).seq fun _ _ => does_pure _
    · exact does_pure _
  by_cases hr : r = .ok
  · simp only [hr, ne_eq, not_true, if_false]
    exact hlast (.ok, ds, m)
  · simp only [hr, ne_eq, not_false_eq_true, if_true]
    exact (does_getDiskInfosBlkid h ds m).seq fun y _ => hlast y

theorem does_containerProc (h : Host) : Does e 2 [] (checkContainerProc h) (.ok (Licensecc.checkContainerProc h)) := by
  unfold checkContainerProc Licensecc.checkContainerProc
  cases h.cgroup with
  | none => exact does_pure _
  | some s =>
    refine does_take (by simp) (by simp) fun fp _ => does_take (by simp) (by simp) fun line _ => ?_
    exact does_give (A' := [(fp, .file)]) (List.Perm.refl _) (by simp) (does_give (A' := []) (List.Perm.refl _) (by simp) (does_pure _))

theorem does_containerType (h : Host) : Does e 2 [] (containerType h) (.ok (Licensecc.containerType h)) := by
  refine (does_containerProc h).then ?_
  unfold Licensecc.containerType
  dsimp only
  split
  · exact Does.during (c' := 0) (by simp) (does_pure _) (by simp)
  · exact does_pure _

theorem does_dmiInfo (h : Host) : Does e 2 [] (dmiInfo h) (Licensecc.dmiInfo h) := by
  refine Does.then (Does.during (c' := 0) (by simp) (does_pure _) (by simp)) ?_
  refine Does.then (a := ()) (Does.during (c' := 0) (by simp) (does_pure _) (by simp)) ?_
  refine (does_lift _).seq fun d _ => ?_
  refine Does.then (a := ()) (Does.during (c' := 0) (by simp) (does_pure _) (by simp)) ?_
  exact (does_lift _).seq fun s _ => does_pure _

theorem does_mkEnv (h : Host) : Does e 2 [] (mkEnv h) (Licensecc.mkEnv h) := by
  refine (does_dmiInfo h).seq fun d _ => ?_
  exact (does_containerType h).then (does_pure _)

theorem does_exec {h : Hooks} {x : Outcome Env} (he : Does e c [] h.env x) (hx : h.world.machine.exec = (do
      let v ← x
      return ⟨virtualization h.host v, v.container = .docker, isCloud v⟩)) : Does e c [] (exec h) h.world.machine.exec := by
  rw [hx]
  exact he.seq fun v _ => does_pure _

theorem linuxLog_overruns (l : Linux) (opens : Nat → Bool) : (linuxLog l opens).overruns = l.logOverruns := by
  unfold LogEnv.overruns linuxLog Linux.logOverruns Logger.overruns
  dsimp only
  cases l.log.logFile with
  | none => cases Logger.getLogFname (l.getenv b!"TMPDIR") <;> rfl
  | some f => rfl

theorem does_linuxLog (l : Linux) (opens : Nat → Bool) : Does (linuxLog l opens) 1 [] (log (linuxLog l opens)) (logResult l.logOverruns) := by
  have := does_log (e := linuxLog l opens)
  rw [linuxLog_overruns] at this
  exact this

theorem does_linuxEnv (l : Linux) (opens : Nat → Bool) : Does (linuxLog l opens) 3 [] (linuxHooks l opens).env (Licensecc.mkEnv l.host) :=
  (does_mkEnv l.host).mono (by simp)

theorem linux_good (l : Linux) (opens : Nat → Bool) : (linuxHooks l opens).Good (linuxLog l opens) 3 where
  pos := by simp
  adapters := does_adapters (does_linuxLog l opens) l.net
  disks := (does_getDiskInfos l.disks).mono (by simp)
  exec := does_exec (does_linuxEnv l opens) rfl
  log := (does_linuxLog l opens).mono (by simp)

theorem linux_verify (l : Linux) (opens : Nat → Bool) (data sig : Bytes) :
    Does (linuxLog l opens) 3 [] ((linuxHooks l opens).verify data sig) ((linuxHooks l opens).world.verify data sig) :=
  does_verify { l.ssl with logOverruns := l.logOverruns } (does_linuxLog l opens) data sig

/-! ## Windows -/

/-- A handle that may be there. -/
def handle (h : Option Nat) (k : Kind) : List (Nat × Kind) := h.toList.map fun n => (n, k)

theorem does_giveIf {c : Nat} {A A' : List (Nat × Kind)} {h : Option Nat} {k : Kind} {β : Type} {f : Unit → Uses β} {x : Outcome β}
    (hp : A.Perm (handle h k ++ A')) (hc : A.length ≤ c) (hf : Does e c A' (f ()) x) : Does e c A (giveIf h k >>= f) x := by
  cases h with
  | some n => exact does_give hp hc hf
  | none =>
    intro s H hi hcm hA
    have hlen : A.length = A'.length := by rw [hp.length_eq]; rfl
    have hA' : Has H A' := ⟨((hp.map (·.1)).nodup_iff).1 hA.nodup, fun p hpm => hA.held p (hp.mem_iff.2 hpm), fun p hpm => hA.noLog p (hp.mem_iff.2 hpm)⟩
    have hdrop : H.drop A = H.drop A' := by
      funext m
      have : m ∈ A.map (·.1) ↔ m ∈ A'.map (·.1) := (hp.map (·.1)).mem_iff
      simp only [Holding.drop, this]
    rw [hdrop, hlen]
    exact hf s H hi hcm hA'

theorem next_no_throw (p : Bytes) (t : Exn) : Win.next p ≠ .throw t := by cases p <;> simp [Win.next]

theorem lengthLoop_no_throw : ∀ (n i acc : Nat) (p : Bytes) (t : Exn), Win.lengthLoop n i acc p ≠ .throw t
  | 0, i, acc, p, t => by simp [Win.lengthLoop]
  | n + 1, i, acc, p, t => by
    intro h
    rw [Win.lengthLoop] at h
    rcases Outcome.bind_eq_throw.mp h with h | ⟨x, _, h⟩
    · exact next_no_throw _ _ h
    · rcases Outcome.bind_eq_throw.mp h with h | ⟨v, _, h⟩
      · unfold Win.shifted at h
        split at h <;> simp at h
      · exact lengthLoop_no_throw n _ _ _ _ h

theorem readLength_no_throw (p : Bytes) (t : Exn) : Win.readLength p ≠ .throw t := by
  intro h
  unfold Win.readLength at h
  rcases Outcome.bind_eq_throw.mp h with h | ⟨x, _, h⟩
  · exact next_no_throw _ _ h
  · obtain ⟨len, q⟩ := x
    dsimp only at h
    split at h
    · exact lengthLoop_no_throw _ _ _ _ _ h
    · simp at h

theorem readSequence_no_throw (p : Bytes) (t : Exn) : Win.readSequence p ≠ .throw t := by
  intro h
  unfold Win.readSequence at h
  rcases Outcome.bind_eq_throw.mp h with h | ⟨x, _, h⟩
  · exact next_no_throw _ _ h
  · obtain ⟨tag, q⟩ := x
    dsimp only at h
    split at h
    · simp at h
    · rcases Outcome.bind_eq_throw.mp h with h | ⟨x, _, h⟩
      · exact readLength_no_throw _ _ h
      · simp at h

theorem copyBytes_no_throw : ∀ (n : Nat) (p : Bytes) (t : Exn), Win.copyBytes n p ≠ .throw t
  | 0, p, t => by simp [Win.copyBytes]
  | n + 1, p, t => by
    intro h
    rw [Win.copyBytes] at h
    rcases Outcome.bind_eq_throw.mp h with h | ⟨x, _, h⟩
    · exact next_no_throw _ _ h
    · rcases Outcome.bind_eq_throw.mp h with h | ⟨x, _, h⟩
      · exact copyBytes_no_throw n _ _ h
      · simp at h

theorem readInteger_no_throw (p l : Bytes) (t : Exn) : Win.readInteger p l ≠ .throw t := by
  intro h
  unfold Win.readInteger at h
  rcases Outcome.bind_eq_throw.mp h with h | ⟨x, _, h⟩
  · exact next_no_throw _ _ h
  · obtain ⟨tag, q⟩ := x
    dsimp only at h
    split at h
    · simp at h
    · rcases Outcome.bind_eq_throw.mp h with h | ⟨x, _, h⟩
      · exact readLength_no_throw _ _ h
      · rcases Outcome.bind_eq_throw.mp h with h | ⟨y, _, h⟩
        · exact next_no_throw _ _ h
        · obtain ⟨b, q⟩ := y
          obtain ⟨n, r⟩ := x
          dsimp only at h
          generalize (if b = 0 then (Win.decrement n, q) else (n, r)) = z at h
          obtain ⟨n', r'⟩ := z
          dsimp only at h
          split at h
          · simp at h
          · rcases Outcome.bind_eq_throw.mp h with h | ⟨y, _, h⟩
            · exact copyBytes_no_throw _ _ _ h
            · simp at h

theorem readKey_no_throw (k m x : Bytes) (t : Exn) : Win.readKey k m x ≠ .throw t := by
  intro h
  unfold Win.readKey at h
  rcases Outcome.bind_eq_throw.mp h with h | ⟨p, _, h⟩
  · exact readSequence_no_throw _ _ h
  · rcases Outcome.bind_eq_throw.mp h with h | ⟨y, _, h⟩
    · exact readInteger_no_throw _ _ _ h
    · rcases Outcome.bind_eq_throw.mp h with h | ⟨y, _, h⟩
      · exact readInteger_no_throw _ _ _ h
      · simp at h

theorem verifyHash_throws {b : Win.Bcrypt} {h sig : Bytes} {t : Exn} (hh : b.verifyHash h sig = .throw t) :
    t = .lengthError ∧ unbase64 sig = .throw .lengthError := by
  unfold Win.Bcrypt.verifyHash at hh
  rcases Outcome.bind_eq_throw.mp hh with hh | ⟨p, _, hh⟩
  · have := unbase64_throws hh
    subst this
    exact ⟨rfl, hh⟩
  · split at hh
    · simp at hh
    · split at hh
      · simp at hh
      · rcases Outcome.bind_eq_throw.mp hh with hh | ⟨p, _, hh⟩
        · exact absurd hh (readKey_no_throw _ _ _ _)
        · obtain ⟨m, x⟩ := p
          dsimp only at hh
          split at hh <;> simp at hh

theorem does_verifyHash (b : Win.Bcrypt) (h sig : Bytes) : Does e 2 [] (verifyHash b h sig) (b.verifyHash h sig) := by
  refine (does_lift _).seq fun blob _ => ?_
  split
  · exact does_lift _
  · refine does_takeIf (by simp) (by simp) (fun hb n _ => ?_) (fun hb => ?_)
    · rw [if_neg (show ¬some n = none by simp), if_neg (show ¬b.rsaProvider = false by simp [hb])]
      refine (does_lift (c := 0) _).bind (by simp) (.inr (readKey_no_throw _ _ _)) fun x _ => ?_
      obtain ⟨m, x⟩ := x
      dsimp only
      refine does_takeIf (by simp) (by simp) (fun hi k _ => ?_) (fun hi => ?_)
      · rw [if_neg (by simp [hi]), hi, Bool.true_and]
        exact does_giveIf (h := some k) (A' := [(n, .provider)]) (List.Perm.refl _) (by simp)
          (does_giveIf (h := some n) (A' := []) (List.Perm.refl _) (by simp) (does_pure _))
      · rw [if_pos hi, hi, Bool.false_and]
        exact does_giveIf (h := none) (A' := [(n, .provider)]) (List.Perm.refl _) (by simp)
          (does_giveIf (h := some n) (A' := []) (List.Perm.refl _) (by simp) (does_pure _))
    · rw [if_pos rfl, if_pos hb]
      exact does_pure _

/-- The end of `verify_signature`. -/
def release (alg : Nat) (x : Option Nat × Option Nat × Option Nat × Bool) : Uses Bool := do
  giveIf x.1 .hash
  giveIf x.2.1 .heap
  giveIf x.2.2.1 .heap
  give alg .provider
  return x.2.2.2

theorem does_release {A : List (Nat × Kind)} (alg : Nat) (hash first second : Option Nat) (good : Bool)
    (hp : A.Perm (handle hash .hash ++ (handle first .heap ++ (handle second .heap ++ [(alg, .provider)])))) :
    Does e 6 A (release alg (hash, first, second, good)) (.ok good) := by
  have hl : A.length ≤ 4 := by
    rw [hp.length_eq]
    cases hash <;> cases first <;> cases second <;> simp [handle]
  refine does_giveIf hp (by omega) (does_giveIf (List.Perm.refl _) ?_ (does_giveIf (List.Perm.refl _) ?_
    (does_give (A' := []) (List.Perm.refl _) (by simp) (does_pure _))))
  · cases first <;> cases second <;> simp [handle]
  · cases second <;> simp [handle]

theorem does_verifyWin (b : Win.Bcrypt) (first second : Bool) (hb : b.allocated = (first && second)) (data sig : Bytes)
    (hx : b.verify data sig ≠ .throw .lengthError) : Does e 6 [] (verifyWin b first second data sig) (b.verify data sig) := by
  unfold verifyWin
  unfold Win.Bcrypt.verify at hx ⊢
  split
  · exact does_lift _
  · rename_i hprov
    rw [if_neg hprov] at hx
    refine does_take (by simp) (by simp) fun alg _ => ?_
    cases hprop : b.properties with
    | false => exact does_release alg none none none false (List.Perm.refl _)
    | true =>
      show Does e 6 _ (allocated b first second data sig >>= release alg) _
      rw [if_neg (by simp)]
      unfold allocated
      simp only [uses_bind_assoc]
      refine does_takeIf (by simp) (by simp) (fun h1 n1 _ => ?_) (fun h1 => ?_)
      · refine does_takeIf (by simp) (by simp) (fun h2 n2 _ => ?_) (fun h2 => ?_)
        · rw [if_neg (show ¬b.allocated = false by simp [hb, h1, h2]), if_pos (show some n1 ≠ none ∧ some n2 ≠ none by simp)]
          unfold hashed
          simp only [uses_bind_assoc]
          refine does_takeIf (by simp) (by simp) (fun h3 n3 _ => ?_) (fun h3 => ?_)
          · rw [if_neg (show ¬b.hashCreated = false by simp [h3]), if_neg (show ¬some n3 = none by simp)]
            cases hh : b.hash data with
            | none => exact does_release alg (some n3) (some n1) (some n2) false (List.Perm.cons _ (List.Perm.swap _ _ _))
            | some h =>
              dsimp only
              rw [if_neg (by simp [hprop]), if_neg (by simp [hb, h1, h2]), if_neg (by simp [h3]), hh] at hx
              dsimp only at hx
              have hno : ∀ t, b.verifyHash h sig ≠ .throw t := fun t ht => hx (by rw [ht, (verifyHash_throws ht).1])
              rw [uses_bind_assoc]
              have := Does.bind (A := [(n3, Kind.hash), (n2, .heap), (n1, .heap), (alg, .provider)]) (c := 6) (does_verifyHash (e := e) b h sig) (by simp)
                (.inr hno) (f := fun good => release alg (some n3, some n1, some n2, good)) (g := fun good => .ok good)
                fun good _ => does_release alg (some n3) (some n1) (some n2) good (List.Perm.cons _ (List.Perm.swap _ _ _))
              have heq : (b.verifyHash h sig >>= fun x => .ok x) = b.verifyHash h sig := by cases b.verifyHash h sig <;> rfl
              rw [heq] at this
              exact this
          · rw [if_pos h3, if_pos rfl]
            exact does_release alg none (some n1) (some n2) false (List.Perm.swap _ _ _)
        · rw [if_pos (show b.allocated = false by simp [hb, h1, h2]), if_neg (show ¬(some n1 ≠ none ∧ (none : Option Nat) ≠ none) by simp)]
          exact does_release alg none (some n1) none false (List.Perm.refl _)
      · refine does_takeIf (by simp) (by simp) (fun h2 n2 _ => ?_) (fun h2 => ?_)
        · rw [if_pos (show b.allocated = false by simp [hb, h1, h2]), if_neg (show ¬((none : Option Nat) ≠ none ∧ some n2 ≠ none) by simp)]
          exact does_release alg none none (some n2) false (List.Perm.refl _)
        · rw [if_pos (show b.allocated = false by simp [hb, h1, h2]), if_neg (show ¬((none : Option Nat) ≠ none ∧ (none : Option Nat) ≠ none) by simp)]
          exact does_release alg none none none false (List.Perm.refl _)

/-- What a check takes when the signature text is `==`: nothing is given back. -/
theorem verifyWin_leaks (b : Win.Bcrypt) (first second : Bool) (hb : b.allocated = (first && second)) (data sig : Bytes)
    (hx : b.verify data sig = .throw .lengthError) (s : Store) : verifyWin b first second data sig s
      = ⟨[.took s.next .provider, .took (s.next + 1) .heap, .took (s.next + 2) .heap, .took (s.next + 3) .hash],
        { s with next := s.next + 4 }, .throw .lengthError⟩ := by
  unfold Win.Bcrypt.verify at hx
  split at hx
  · simp at hx
  rename_i h1
  split at hx
  · simp at hx
  rename_i h2
  split at hx
  · simp at hx
  rename_i h3
  split at hx
  · simp at hx
  rename_i h4
  have h1 : b.hashProvider = true := by simpa using h1
  have h2 : b.properties = true := by simpa using h2
  have h3 : b.allocated = true := by simpa using h3
  have h4 : b.hashCreated = true := by simpa using h4
  rw [h3] at hb
  have hf : first = true ∧ second = true := by simpa using hb.symm
  obtain ⟨rfl, rfl⟩ := hf
  split at hx
  · simp at hx
  rename_i h hh
  have h5 := (verifyHash_throws hx).2
  simp [verifyWin, h1, h2, allocated, hashed, h4, hh, verifyHash, h5, takeIf, take, lift, Bind.bind, Uses.bind, Pure.pure]

theorem unless_verifyWin (b : Win.Bcrypt) (first second : Bool) (hb : b.allocated = (first && second)) (data sig : Bytes) :
    Unless e 6 (verifyWin b first second data sig) (b.verify data sig) := by
  refine ⟨does_verifyWin b first second hb data sig, fun s H hi hc => ?_⟩
  by_cases hx : b.verify data sig = .throw .lengthError
  · rw [verifyWin_leaks b first second hb data sig hx, hx]
  · exact (does_verifyWin b first second hb data sig hx s H hi hc (has_nil H)).1

theorem translate_no_throw : ∀ (s : Bytes) (i : Nat) (ip : Bytes) (t : Exn), Win.translate s i ip ≠ .throw t
  | [], i, ip, t => by simp [Win.translate]
  | c :: s, i, ip, t => by
    intro h
    rw [Win.translate] at h
    split at h
    · split at h
      · exact translate_no_throw s _ _ _ h
      · simp at h
    · exact translate_no_throw s _ _ _ h

theorem adaptersOfList_no_throw : ∀ (l : List Win.IpAdapter) (t : Exn), Win.adaptersOfList l ≠ .throw t
  | [], t => by simp [Win.adaptersOfList]
  | a :: l, t => by
    intro h
    rw [Win.adaptersOfList] at h
    rcases Outcome.bind_eq_throw.mp h with h | ⟨x, _, h⟩
    · unfold Win.adapterOfEntry at h
      split at h
      · simp at h
      · split at h
        · simp at h
        · split at h
          · simp at h
          · rcases Outcome.bind_eq_throw.mp h with h | ⟨y, _, h⟩
            · exact translate_no_throw _ _ _ _ h
            · simp at h
    · rcases Outcome.bind_eq_throw.mp h with h | ⟨y, _, h⟩
      · exact adaptersOfList_no_throw l _ h
      · simp at h

theorem does_collect (n : Win.Net) (l : List Win.IpAdapter) (p : Nat) : Does e 6 [(p, .heap)] (do
      let t ← lift (Win.adaptersOfList l)
      give p .heap
      return if t.length = 0 then (FuncRet.notAvail, []) else (.ok, n.sort t)) (n.collect l) :=
  (does_lift (c := 0) _).bind (by simp) (.inr (adaptersOfList_no_throw l)) fun t _ =>
    does_give (A' := []) (List.Perm.refl _) (by simp) (does_pure _)

theorem does_adaptersWin (n : Win.Net) : Does e 6 [] (getAdapterInfosWin n) n.getAdapterInfos := by
  refine Does.seq (x := n.getAdapterInfosNamed) ?_ fun x _ => does_pure _
  unfold Win.Net.getAdapterInfosNamed
  refine does_takeIf (by simp) (by simp) (fun h1 p _ => ?_) (fun h1 => ?_)
  · rw [if_neg (by simp [h1])]
    cases n.first with
    | noError l => exact does_collect n l p
    | other => exact does_lift_ub
    | overflow =>
      refine does_give (A' := []) (List.Perm.refl _) (by simp) (does_takeIf (by simp) (by simp) (fun h2 q _ => ?_) (fun h2 => ?_))
      · rw [if_neg (by simp [h2])]
        cases n.second with
        | noError l => exact does_collect n l q
        | overflow => exact does_give (A' := []) (List.Perm.refl _) (by simp) (does_pure _)
        | other => exact does_give (A' := []) (List.Perm.refl _) (by simp) (does_pure _)
      · rw [if_pos h2]
        exact does_pure _
  · rw [if_pos h1]
    exact does_pure _

theorem windowsLog_overruns (l : Win.Windows) (opens : Nat → Bool) : (windowsLog l opens).overruns = l.logOverruns := by
  unfold LogEnv.overruns windowsLog Win.Windows.logOverruns Logger.overrunsWin
  dsimp only
  cases l.log.logFile with
  | none => cases Logger.getLogFnameWin l.tempPath <;> rfl
  | some f => rfl

theorem does_windowsLog (l : Win.Windows) (opens : Nat → Bool) :
    Does (windowsLog l opens) 1 [] (log (windowsLog l opens)) (logResult l.logOverruns) := by
  have := does_log (e := windowsLog l opens)
  rw [windowsLog_overruns] at this
  exact this

theorem does_windowsEnv (l : Win.Windows) (first second : Bool) (opens : Nat → Bool) :
    Does (windowsLog l opens) 6 [] (windowsHooks l first second opens).env l.host.mkEnv :=
  Does.during (c' := 0) (by simp) (does_lift _) (by simp)

theorem windows_verify (l : Win.Windows) {first second : Bool} (hb : l.crypt.allocated = (first && second)) (opens : Nat → Bool)
    (data sig : Bytes) : Unless (windowsLog l opens) 6 ((windowsHooks l first second opens).verify data sig)
      ((windowsHooks l first second opens).world.verify data sig) := unless_verifyWin l.crypt first second hb data sig

theorem windows_good (l : Win.Windows) (first second : Bool) (opens : Nat → Bool) :
    (windowsHooks l first second opens).Good (windowsLog l opens) 6 where
  pos := by simp
  adapters := does_adaptersWin l.net
  disks := does_pure _
  exec := does_exec (does_windowsEnv l first second opens) rfl
  log := (does_windowsLog l opens).mono (by simp)

/-! ## Calls one after the other -/

/-- What the rules give for one call. -/
def Kept (c : Nat) (s : Store) (es : List Ev) (s' : Store) : Prop :=
  ∃ (e : LogEnv) (α : Type) (u : Uses α) (x : Outcome α), (∀ H, Compat H s → Does e c [] u x) ∧ (u s).result ≠ .ub ∧ Inv e s ∧ es = (u s).trace ∧ s' = (u s).store

/-- What holds after calls. -/
structure Settled (c : Nat) (es : List Ev) (s : Store) : Prop where
  held : ∃ H, replay (fun _ => none) 0 es = some (H, s.next) ∧ After (fun _ => none) untouched H s
  log : ∀ h, Ev.gave h .logFile ∉ es
  peak : ∀ p, p <+: es → load p ≤ c
  zero : load es = 0

theorem compat_fresh : Compat (fun _ => none) untouched := ⟨fun _ _ => rfl, fun _ h => (nomatch h)⟩

theorem settled_of_sequence {c : Nat} {call : Store → List Ev → Store → Prop} (hcall : ∀ s es s', call s es s' → Kept c s es s') {s : Store} {es : List Ev}
    (h : Sequence call untouched es s) : Settled c es s := by
  induction h with
  | start =>
    exact ⟨⟨_, rfl, .inl ⟨rfl, rfl⟩⟩, fun _ h => (nomatch h), fun p hp => by rw [List.prefix_nil.1 hp]; simp [load], rfl⟩
  | after hseq hc ih =>
    obtain ⟨⟨H, hr, ha⟩, hl, hp, hz⟩ := ih
    obtain ⟨e, α, u, x, hd, hx, hi, rfl, rfl⟩ := hcall _ _ _ hc
    have hcm : Compat H _ := compat_after compat_fresh (Nat.zero_le _) ha
    obtain ⟨hres, hrest⟩ := hd H hcm _ H hi hcm (has_nil H)
    obtain ⟨h1, h2, ⟨H', h3, h3'⟩, h4, h5, h6⟩ := hrest (by rw [← hres]; exact hx)
    rw [drop_nil] at h3'
    refine ⟨⟨H', by rw [replay_append, hr]; exact h3, after_trans ha (Nat.zero_le _) h2 h3'⟩, fun h hm => (List.mem_append.1 hm).elim (hl h) (h6 h), ?_, ?_⟩
    · intro p hpp
      rcases prefix_append hpp with hpp | ⟨q, hq, rfl⟩
      · exact hp p hpp
      · have := h4 q hq
        rw [load_append, hz]
        simpa using this
    · rw [load_append, hz]
      simpa using h5

theorem Settled.orderly {c : Nat} {es : List Ev} {s : Store} (h : Settled c es s) : Orderly es := by
  obtain ⟨⟨H, hr, ha⟩, hl, _, _⟩ := h
  exact orderly_of_replay hr ha hl

theorem linux_inv {l : Linux} {s : Store} (h : l.log.logFile = none ↔ s.log = none) (opens : Nat → Bool) : Inv (linuxLog l opens) s := by
  refine ⟨fun hs => by simp [linuxLog, h.2 hs], fun hs => ?_⟩
  have : l.log.logFile ≠ none := fun hn => hs (h.1 hn)
  unfold LogEnv.overruns linuxLog
  cases hf : l.log.logFile with
  | none => exact absurd hf this
  | some f => rfl

theorem windows_inv {l : Win.Windows} {s : Store} (h : l.log.logFile = none ↔ s.log = none) (opens : Nat → Bool) : Inv (windowsLog l opens) s := by
  refine ⟨fun hs => by simp [windowsLog, h.2 hs], fun hs => ?_⟩
  have : l.log.logFile ≠ none := fun hn => hs (h.1 hn)
  unfold LogEnv.overruns windowsLog
  cases hf : l.log.logFile with
  | none => exact absurd hf this
  | some f => rfl

/-- A call from a store that calls have left. -/
theorem result_of_settled {c c' : Nat} {es : List Ev} {s : Store} (h : Settled c es s) {α : Type} {u : Uses α} {x : Outcome α}
    {e : LogEnv} (hd : Does e c' [] u x) (hi : Inv e s) : (u s).result = x := by
  obtain ⟨⟨H, hr, ha⟩, _, _, _⟩ := h
  exact (hd s H hi (compat_after compat_fresh (Nat.zero_le _) ha) (has_nil H)).1

theorem result_of_settled' {c c' : Nat} {es : List Ev} {s : Store} (h : Settled c es s) {α : Type} {u : Uses α} {x : Outcome α}
    {e : LogEnv} (hd : Unless e c' u x) (hi : Inv e s) : (u s).result = x := by
  obtain ⟨⟨H, hr, ha⟩, _, _, _⟩ := h
  exact hd.2 s H hi (compat_after compat_fresh (Nat.zero_le _) ha)

theorem linux_kept {s s' : Store} {es : List Ev} (h : LinuxCall s es s') : Kept 3 s es s' := by
  cases h with
  | acquire log defined => exact ⟨_, _, _, _, fun _ _ => does_acquire (linux_good _ _) (linux_verify _ _) _ _ _ _, defined, linux_inv log _, rfl, rfl⟩
  | identify log defined =>
    exact ⟨_, _, _, _, fun _ _ => does_identify (linux_good _ _) (does_linuxEnv _ _) _ _ _ _ _, defined, linux_inv log _, rfl, rfl⟩

theorem windows_kept {s s' : Store} {es : List Ev} (h : WindowsCall s es s') : Kept 6 s es s' := by
  cases h with
  | @acquire l first second opens cfg caller hint out _ alloc log defined quiet =>
    have hd := unless_acquire (windows_good l first second opens) (windows_verify l alloc opens) cfg caller hint out
    have hi := windows_inv log opens
    exact ⟨_, _, _, _, fun H hc => hd.1 fun hx => quiet ((hd.2 _ H hi hc).trans hx), defined, hi, rfl, rfl⟩
  | identify alloc log defined =>
    exact ⟨_, _, _, _, fun _ _ => does_identify (windows_good _ _ _ _) (does_windowsEnv _ _ _ _) _ _ _ _ _, defined, windows_inv log _, rfl, rfl⟩

/-- C72: on Linux, whatever calls were made before, the functions with resources compute what the other theorems are about. -/
theorem C72_same_linux {s : Store} {es : List Ev} (hs : Sequence LinuxCall untouched es s) (l : Linux) (opens : Nat → Bool)
    (hl : l.log.logFile = none ↔ s.log = none) :
    (∀ cfg caller hint out, (acquire cfg (linuxHooks l opens) caller hint out s).result = Licensecc.acquire cfg l.world caller hint out)
    ∧ ∀ cache strategy buf size info, (identify (linuxHooks l opens) cache strategy buf size info s).result
      = identifyPcEnv l.os.machine l.host cache strategy buf size info := by
  have hset := settled_of_sequence (c := 3) (fun _ _ _ => linux_kept) hs
  refine ⟨fun cfg caller hint out => result_of_settled hset (does_acquire (linux_good l opens) (linux_verify l opens) cfg caller hint out) (linux_inv hl opens),
    fun cache strategy buf size info => ?_⟩
  have := result_of_settled hset (does_identify (linux_good l opens) (does_linuxEnv l opens) cache strategy buf size info) (linux_inv hl opens)
  rw [this]
  unfold identifyPcEnv
  cases cache <;> rfl

/-- C72: the same on Windows. -/
theorem C72_same_windows {s : Store} {es : List Ev} (hs : Sequence WindowsCall untouched es s) (l : Win.Windows) {first second : Bool}
    (ha : l.crypt.allocated = (first && second)) (opens : Nat → Bool) (hl : l.log.logFile = none ↔ s.log = none) :
    (∀ cfg caller hint out, (acquire cfg (windowsHooks l first second opens) caller hint out s).result
      = Licensecc.acquire cfg l.world caller hint out)
    ∧ ∀ cache strategy buf size info, (identify (windowsHooks l first second opens) cache strategy buf size info s).result = (do
      let r ← Licensecc.identifyPc l.os.machine strategy buf size
      let v ← match cache with
        | some v => .ok v
        | none => l.host.mkEnv
      return (r, if info then some ⟨cloudProvider v, virtualization l.host.common v, virtualizationDetail l.host.common v⟩ else none, some v)) := by
  have hset := settled_of_sequence (c := 6) (fun _ _ _ => windows_kept) hs
  exact ⟨fun cfg caller hint out => result_of_settled' hset (unless_acquire (windows_good l first second opens) (windows_verify l ha opens) cfg caller hint out) (windows_inv hl opens),
    fun cache strategy buf size info =>
      result_of_settled hset (does_identify (windows_good l first second opens) (does_windowsEnv l first second opens) cache strategy buf size info)
        (windows_inv hl opens)⟩

/-- C72 on Linux: over any calls, whether they return or throw, everything taken is given back once, in its own way, after it was taken;
    only the log file stays open, and it is opened once. -/
theorem C72_linux {s : Store} {es : List Ev} (h : Sequence LinuxCall untouched es s) : Orderly es :=
  (settled_of_sequence (fun _ _ _ => linux_kept) h).orderly

/-- C72 on Windows. -/
theorem C72_windows {s : Store} {es : List Ev} (h : Sequence WindowsCall untouched es s) : Orderly es :=
  (settled_of_sequence (fun _ _ _ => windows_kept) h).orderly

/-- C72 on Linux: at no moment more than three things are held besides the log file, after a call none. -/
theorem C72_peak_linux {s : Store} {es : List Ev} (h : Sequence LinuxCall untouched es s) : (∀ p, p <+: es → load p ≤ 3) ∧ load es = 0 :=
  have hs := settled_of_sequence (fun _ _ _ => linux_kept) h
  ⟨hs.peak, hs.zero⟩

/-- C72 on Windows: at no moment more than six. -/
theorem C72_peak_windows {s : Store} {es : List Ev} (h : Sequence WindowsCall untouched es s) : (∀ p, p <+: es → load p ≤ 6) ∧ load es = 0 :=
  have hs := settled_of_sequence (fun _ _ _ => windows_kept) h
  ⟨hs.peak, hs.zero⟩

/-- C72 on Windows, the exception `WindowsCall.quiet` names (`C60_throws_iff` says when a check does this: the signature text is `==`): the check
    then leaves the hash provider, its two memory blocks and the hash object behind, whatever was called before. -/
theorem C72_windows_leak {b : Win.Bcrypt} {first second : Bool} (hb : b.allocated = (first && second)) {data sig : Bytes}
    (hx : b.verify data sig = .throw .lengthError) (s : Store) :
    (verifyWin b first second data sig s).result = .throw .lengthError
    ∧ load (verifyWin b first second data sig s).trace = 4 ∧ ¬ Orderly (verifyWin b first second data sig s).trace := by
  rw [verifyWin_leaks b first second hb data sig hx]
  refine ⟨rfl, by simp [load], fun h => ?_⟩
  obtain ⟨j, hj, hg⟩ := h.givenBack (i := 0) (h := s.next) (k := .provider) rfl (by simp)
  have := List.mem_of_getElem? hg
  simp at this

/-! ## Examples -/

/-- The licence file is found, read and checked, then the disks are looked at. -/
theorem sample_took : (acquire sampleConfig (linuxHooks sampleLinux fun _ => true) (some sampleCaller) none none untouched).trace
    = [.took 0 .stream, .gave 0 .stream, .took 1 .stream, .gave 1 .stream, .took 2 .bio, .took 3 .rsa, .gave 2 .bio, .took 4 .pkey,
      .gave 3 .rsa, .took 5 .bio, .took 6 .bio, .gave 5 .bio, .gave 6 .bio, .took 7 .digest, .gave 4 .pkey, .gave 7 .digest, .took 8 .dir,
      .took 9 .block, .gave 9 .block, .took 10 .block, .gave 10 .block, .gave 8 .dir, .took 11 .dir, .gave 11 .dir, .took 12 .mntent,
      .gave 12 .mntent] := by
  decide +kernel

/-- An identifier for an unknown strategy: an exception is caught and logged, the log file stays open. -/
theorem sample_logged : (identify (linuxHooks sampleLinux fun _ => true) none 7 (some (List.replicate 20 0)) 20 false untouched).trace
    = [.took 0 .logFile, .took 1 .block, .gave 1 .block, .took 2 .stream, .gave 2 .stream, .took 3 .stream, .gave 3 .stream,
      .took 4 .stream, .gave 4 .stream] := by
  decide +kernel

/-- Both, one after the other. -/
theorem sample_sequence : ∃ es s, Sequence LinuxCall untouched es s ∧ .took 0 .logFile ∈ es ∧ .took 7 .bio ∈ es := by
  have h1 : LinuxCall untouched _ _ := .identify (l := sampleLinux) (opens := fun _ => true) (cache := none) (strategy := 7)
    (buf := some (List.replicate 20 0)) (size := 20) (info := false) (s := untouched) (by decide) (by decide +kernel)
  refine ⟨_, _, .after (.after .start h1) (.acquire (l := { sampleLinux with log := ⟨some [], fun _ => []⟩ }) (opens := fun _ => true)
    (cfg := sampleConfig) (caller := some sampleCaller) (hint := none) (out := none) (by decide +kernel) (by decide +kernel)), ?_, ?_⟩
  · rw [sample_logged]
    simp
  · decide +kernel

/-- The signature is checked on Windows: six things are held when the key has been imported. -/
theorem sample_took_windows : (acquire sampleConfig (windowsHooks Win.sampleWindows true true fun _ => true) (some sampleCaller) none none untouched).trace
    = [.took 0 .stream, .gave 0 .stream, .took 1 .stream, .gave 1 .stream, .took 2 .provider, .took 3 .heap, .took 4 .heap, .took 5 .hash,
      .took 6 .provider, .took 7 .key, .gave 7 .key, .gave 6 .provider, .gave 5 .hash, .gave 3 .heap, .gave 4 .heap, .gave 2 .provider] := by
  decide +kernel

/-- A licence file whose signature is `==`: `acquire_license` throws and the four things are left behind. -/
theorem sample_leak :
    let r := acquire sampleConfig (windowsHooks { Win.sampleWindows with
      crypt := { Win.sampleWindows.crypt with hash := fun _ => some [] }
      read := fun _ => some (issuedText (b!"test") Win.boundLimits (b!"==")) } true true fun _ => true) (some sampleCaller) none none untouched
    r.result = .throw .lengthError ∧ r.trace = [.took 0 .stream, .gave 0 .stream, .took 1 .stream, .gave 1 .stream, .took 2 .provider,
      .took 3 .heap, .took 4 .heap, .took 5 .hash] ∧ load r.trace = 4 := by
  decide +kernel

/-- The bounds are reached. -/
example : (∃ es s p, Sequence LinuxCall untouched es s ∧ p <+: es ∧ load p = 3)
    ∧ ∃ es s p, Sequence WindowsCall untouched es s ∧ p <+: es ∧ load p = 6 := by
  constructor
  · refine ⟨_, _, List.take 11 (acquire sampleConfig (linuxHooks sampleLinux fun _ => true) (some sampleCaller) none none untouched).trace,
      .after .start (.acquire (l := sampleLinux) (opens := fun _ => true) (cfg := sampleConfig) (caller := some sampleCaller)
      (hint := none) (out := none) (s := untouched) (by decide) (by decide +kernel)), ?_, ?_⟩
    · exact List.take_prefix _ _
    · rw [sample_took]; decide
  · refine ⟨_, _, List.take 10 (acquire sampleConfig (windowsHooks Win.sampleWindows true true fun _ => true) (some sampleCaller) none none untouched).trace,
      .after .start (.acquire (l := Win.sampleWindows) (first := true) (second := true) (opens := fun _ => true)
      (cfg := sampleConfig) (caller := some sampleCaller) (hint := none) (out := none) (s := untouched) (by decide) (by decide) (by decide +kernel) (by decide +kernel)), ?_, ?_⟩
    · exact List.take_prefix _ _
    · rw [sample_took_windows]; decide

end Licensecc.Resources
