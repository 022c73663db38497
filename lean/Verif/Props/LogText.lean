import Verif.Spec.LogText
import Verif.Props.Output
import Verif.Props.Identify
import Verif.Props.Logger
import Verif.Props.Resources
/-!
# C83: what the library writes in its log
-/
set_option linter.unusedSimpArgs false
namespace Licensecc.LogText
open Licensecc Spec

/-! ## Sequencing -/

@[simp] theorem pure_entries {α : Type} (a : α) : (pure a : Tells α).entries = [] := rfl
@[simp] theorem pure_result {α : Type} (a : α) : (pure a : Tells α).result = .ok a := rfl
@[simp] theorem quiet_entries {α : Type} (x : Outcome α) (f : Exn → Bytes) : (quiet x f).entries = [] := rfl
@[simp] theorem quiet_result {α : Type} (x : Outcome α) (f : Exn → Bytes) : (quiet x f).result = x := rfl
@[simp] theorem log_result (m : Machine) (e : Entry) : (log m e).result = m.logged (.ok ()) := rfl

@[simp] theorem bind_result {α β : Type} (x : Tells α) (f : α → Tells β) : (x >>= f).result = x.result >>= fun a => (f a).result := by
  show (Tells.bind x f).result = _
  unfold Tells.bind
  cases x.result <;> rfl

theorem bind_ok {α β : Type} {x : Tells α} {f : α → Tells β} {a : α} (h : x.result = .ok a) :
    x >>= f = ⟨x.entries ++ (f a).entries, (f a).result, (f a).what⟩ := by
  show Tells.bind x f = _
  unfold Tells.bind
  rw [h]

theorem bind_throw {α β : Type} {x : Tells α} {f : α → Tells β} {e : Exn} (h : x.result = .throw e) :
    x >>= f = ⟨x.entries, .throw e, x.what⟩ := by
  show Tells.bind x f = _
  unfold Tells.bind
  rw [h]

theorem bind_ub {α β : Type} {x : Tells α} {f : α → Tells β} (h : x.result = .ub) : x >>= f = ⟨x.entries, .ub, []⟩ := by
  show Tells.bind x f = _
  unfold Tells.bind
  rw [h]

theorem bind_entries_ok {α β : Type} {x : Tells α} {f : α → Tells β} {a : α} (h : x.result = .ok a) :
    (x >>= f).entries = x.entries ++ (f a).entries := by rw [bind_ok h]

/-- Computations that log nothing can be followed by nothing but what they lead to. -/
theorem quiet_ok_bind {α β : Type} (a : α) (w : Exn → Bytes) (f : α → Tells β) : (quiet (.ok a) w >>= f) = f a := by
  rw [bind_ok (quiet_result _ _)]
  simp

theorem pure_bind' {α β : Type} (a : α) (f : α → Tells β) : ((pure a : Tells α) >>= f) = f a := by
  rw [bind_ok (pure_result _)]
  simp

theorem bind_entries_quiet {α β : Type} (x : Tells α) (f : α → Tells β) (h : ∀ a, (f a).entries = []) : (x >>= f).entries = x.entries := by
  cases hr : x.result with
  | ok a => rw [bind_ok hr, h]; simp
  | throw e => rw [bind_throw hr]
  | ub => rw [bind_ub hr]

theorem catching_result {α : Type} (p : Exn → Bool) (u : Tells α) (g : Bytes → Tells α) :
    (catching p u g).result = match u.result with
      | .throw e => if p e then (g u.what).result else .throw e
      | x => x := by
  unfold catching
  cases h : u.result with
  | ok a => simp [h]
  | ub => simp [h]
  | throw e => dsimp only; split <;> simp [h]

/-! ## The same results -/

theorem ofString_result (lib : Exn → Bytes) (s : Bytes) : (ofString lib s).result = HwId.ofString s := by
  unfold ofString HwId.ofString
  simp only [bind_result, quiet_result]
  cases unbase64 (HwId.replaceByte 45 10 s) with
  | throw e => rfl
  | ub => rfl
  | ok d =>
    simp only [Outcome.ok_bind]
    split
    · rfl
    · rename_i hno
      split
      · rename_i x h; simp only [Outcome.ok.injEq] at h; exact absurd h (hno _ _ _ _ _ _ _ _)
      · rfl
      · rename_i h; simp at h
      · rename_i h; simp at h

theorem getStrategy_result (n : Int) : (getStrategy n).result = Licensecc.getStrategy n := rfl

theorem generateEthernetIds_result {h : Hooks} (hf : Faithful h) (b : Bool) :
    (generateEthernetIds h b).result = Licensecc.generateEthernetIds h.world.machine b := by
  unfold generateEthernetIds Licensecc.generateEthernetIds
  simp only [bind_result, hf.adapters]
  congr 1; funext ⟨r, as⟩
  dsimp only
  by_cases h1 : r = .ok
  · by_cases h2 : as.length = 0 <;> simp [h1, h2]
  · simp [h1]

theorem alternativeIds_result {h : Hooks} (hf : Faithful h) (s : Strategy) :
    (alternativeIds h s).result = Licensecc.alternativeIds h.world.machine s := by
  have key : ∀ (s : Strategy) (x : Outcome (FuncRet × List Payload)),
      (x >>= fun a => (makeIds s a).result) = (do
        let (r, ps) ← x
        if r = .ok then ps.mapM (mkId s.code) else return []) := by
    intro s x
    congr 1
  cases s with
  | default => rfl
  | ethernet =>
    simp only [alternativeIds, bind_result, generateEthernetIds_result hf, key]; rfl
  | ip =>
    simp only [alternativeIds, bind_result, generateEthernetIds_result hf, key]; rfl
  | disk =>
    simp only [alternativeIds, bind_result, quiet_result, key]; rfl

theorem validateIdentifier_result {h : Hooks} (hf : Faithful h) (s : Strategy) (id : HwId) :
    (validateIdentifier h s id).result = Licensecc.validateIdentifier h.world.machine s id := by
  unfold validateIdentifier Licensecc.validateIdentifier
  by_cases h1 : s = .default
  · rw [if_pos h1, if_pos h1]; rfl
  · rw [if_neg h1, if_neg h1]
    by_cases h2 : id.strategy = s.code
    · simp only [h2, if_true, bind_result, alternativeIds_result hf]; rfl
    · simp only [h2, if_false]; rfl

theorem validatePcSignature_result {h : Hooks} (hf : Faithful h) (s : Bytes) :
    (validatePcSignature h s).result = Licensecc.validatePcSignature h.world.machine s := by
  unfold validatePcSignature Licensecc.validatePcSignature
  rw [catching_result]
  simp only [bind_result, ofString_result, getStrategy_result, validateIdentifier_result hf, log_result, pure_result]
  generalize (HwId.ofString s >>= fun a => Licensecc.getStrategy a.strategy >>= fun b => Licensecc.validateIdentifier h.world.machine b a) = r
  cases r with
  | ok a => rfl
  | ub => rfl
  | throw e =>
    dsimp only
    split
    · unfold Machine.logged; split <;> rfl
    · rfl

theorem checkClient_result {h : Hooks} (hf : Faithful h) (l : FullLicense) (r : Registry) :
    (checkClient h l r).result = Licensecc.checkClient h.world l r := by
  unfold checkClient Licensecc.checkClient
  cases SMap.find? kClient l.limits <;> simp [validatePcSignature_result hf]

theorem verifyLimits_result {h : Hooks} (hf : Faithful h) (cfg : Config) (l : FullLicense) (r : Registry) (k : Nat) :
    (verifyLimits cfg h l r k).result = Licensecc.verifyLimits cfg h.world l r k := by
  unfold verifyLimits Licensecc.verifyLimits
  dsimp only
  split
  · simp only [bind_result, quiet_result]
    congr 1; funext ⟨r1, v⟩
    cases v
    · rfl
    · simp only [if_true, bind_result, quiet_result]
      congr 1; funext ⟨r1, v⟩
      cases v
      · rfl
      · simp [checkClient_result hf]
  · simp

theorem verifySignature_result {h : Hooks} (hf : Faithful h) (l : FullLicense) (r : Registry) :
    (verifySignature h l r).result = Licensecc.verifySignature h.world l r := by
  unfold verifySignature Licensecc.verifySignature
  simp [hf.verify]

theorem judgeLoop_result {h : Hooks} (hf : Faithful h) (cfg : Config) (caller : Option Caller) (ls : List FullLicense) :
    ∀ r k, (judgeLoop cfg h caller r k ls).result = Licensecc.judgeLoop cfg h.world caller r k ls := by
  induction ls with
  | nil => intro r k; rfl
  | cons l ls ih =>
    intro r k
    simp only [judgeLoop, Licensecc.judgeLoop, bind_result, verifySignature_result hf]
    congr 1; funext ⟨r, good⟩
    simp only [quiet_result]
    congr 1; funext ⟨info, k⟩
    cases good
    · simp [ih]
    · simp [ih, verifyLimits_result hf]

theorem judge_result {h : Hooks} (hf : Faithful h) (cfg : Config) (caller : Option Caller) (out : Option LicInfo) (r : Registry)
    (lics : List FullLicense) : (judge cfg h caller out r lics).result = Licensecc.judge cfg h.world caller out r lics := by
  unfold judge Licensecc.judge
  cases lics with
  | nil => rfl
  | cons l ls =>
    simp only [bind_result, judgeLoop_result hf]
    congr 1; funext ⟨r, k, oks, errs⟩
    cases oks <;> rfl

theorem licenseLocations_result (w : World) (l : Locator) (r : Registry) :
    (licenseLocations w l r).result = Licensecc.licenseLocations w l r := by
  cases l with
  | applicationFolder =>
    cases hm : w.moduleName with
    | none =>
      simp only [licenseLocations, Licensecc.licenseLocations, hm, bind_result, log_result, pure_result]
      unfold Machine.logged; split <;> rfl
    | some m => simp only [licenseLocations, hm, quiet_result]
  | environmentVarLocation => rfl
  | environmentVarData => rfl
  | externalDefinition loc => rfl

theorem readLocators_result (w : World) (f : Bytes) (ls : List Locator) :
    ∀ r, (readLocators w f r ls).result = Licensecc.readLocators w f r ls := by
  induction ls with
  | nil => intro r; rfl
  | cons l ls ih =>
    intro r
    simp [readLocators, Licensecc.readLocators, licenseLocations_result, ih]

theorem readLicenses_result (cfg : Config) (w : World) (hint : Option LicenseLocation) (f : Bytes) :
    (readLicenses cfg w hint f).result = Licensecc.readLicenses cfg w hint f := by
  unfold readLicenses Licensecc.readLicenses
  dsimp only
  split
  · rfl
  · simp only [bind_result, readLocators_result]
    congr 1; funext ⟨r, lics⟩
    dsimp only
    split <;> rfl

/-- **C83**: with what it logs, the model of `acquire_license` computes the same as without. -/
theorem C83_same {h : Hooks} (hf : Faithful h) (cfg : Config) (caller : Option Caller) (hint : Option LicenseLocation)
    (out : Option LicInfo) : (acquire cfg h caller hint out).result = Licensecc.acquire cfg h.world caller hint out := by
  unfold acquire Licensecc.acquire
  simp [readLicenses_result, judge_result hf]

theorem tryStrategies_result {h : Hooks} (hf : Faithful h) (ns : List Int) :
    (tryStrategies h ns).result = Licensecc.tryStrategies h.world.machine ns := by
  induction ns with
  | nil => rfl
  | cons n ns ih =>
    simp only [tryStrategies, Licensecc.tryStrategies, bind_result, getStrategy_result, generateFirst, Licensecc.generateFirst,
      alternativeIds_result hf, pure_result]
    congr 1; funext s
    congr 1; funext o
    cases o with
    | none => exact ih
    | some a => rfl

theorem generatePcId_result {h : Hooks} (hf : Faithful h) (s : Strategy) :
    (generatePcId h s).result = Licensecc.generatePcId h.world.machine s := by
  cases s <;> simp [generatePcId, Licensecc.generatePcId, generateFirst, Licensecc.generateFirst, alternativeIds_result hf,
    tryStrategies_result hf]

theorem warnUnknown_result (m : Machine) (n : Int) : (warnUnknown m n).result = m.warnUnknown n := by
  unfold warnUnknown Machine.warnUnknown
  split <;> rfl

theorem generateUserPcSignature_result {h : Hooks} (hf : Faithful h) (n : Int) :
    (generateUserPcSignature h n).result = Licensecc.generateUserPcSignature h.world.machine n := by
  unfold generateUserPcSignature Licensecc.generateUserPcSignature
  simp only [bind_result, warnUnknown_result, getStrategy_result, generatePcId_result hf]
  congr 1; funext _
  congr 1; funext s
  congr 1; funext o
  cases o <;> rfl

/-- **C83**: with what it logs, the model of `identify_pc` computes the same as without. -/
theorem C83_same_identify {h : Hooks} (hf : Faithful h) (n : Int) (buf : Option Bytes) (size : Nat) :
    (identifyPc h n buf size).result = Licensecc.identifyPc h.world.machine n buf size := by
  unfold identifyPc Licensecc.identifyPc
  cases buf with
  | none => rfl
  | some mem =>
    dsimp only
    split
    · rw [catching_result]
      simp only [bind_result, generateUserPcSignature_result hf, quiet_result, log_result, pure_result]
      cases Licensecc.generateUserPcSignature h.world.machine n with
      | ub => rfl
      | throw e =>
        simp only [Outcome.throw_bind, if_true]
        unfold Machine.logged; split <;> rfl
      | ok id =>
        simp only [Outcome.ok_bind]
        cases hm : mstrlcpy mem (id ++ [0]) size with
        | ok x => rfl
        | ub => rfl
        | throw e => exact absurd hm (Resources.mstrlcpy_no_throw _ _ _ e)
    · rfl

/-! ## Hardware identifiers -/

theorem log_ok {m : Machine} {e : Entry} {x : Unit} (h : (log m e).result = .ok x) : (log m e).entries = [e] := by
  unfold log at h ⊢
  unfold Machine.logged at h
  cases hm : m.logOverruns with
  | true => simp [hm] at h
  | false => simp [hm]

theorem generateEthernetIds_entries (h : Hooks) (b : Bool) : (generateEthernetIds h b).entries = h.adapters.entries := by
  unfold generateEthernetIds
  apply bind_entries_quiet
  rintro ⟨r, as⟩
  dsimp only
  split
  · rfl
  · split <;> rfl

theorem generateEthernetIds_ok {h : Hooks} {b : Bool} {x : FuncRet × List Payload} (hr : (generateEthernetIds h b).result = .ok x) :
    ∃ y, h.adapters.result = .ok y := by
  unfold generateEthernetIds at hr
  rw [bind_result] at hr
  obtain ⟨y, h1, _⟩ := Outcome.bind_eq_ok.mp hr
  exact ⟨y, h1⟩

theorem generateEthernetIds_throw {h : Hooks} {b : Bool} {e : Exn} (hr : h.adapters.result = .throw e) :
    generateEthernetIds h b = ⟨h.adapters.entries, .throw e, h.adapters.what⟩ := by
  unfold generateEthernetIds
  rw [bind_throw hr]

theorem makeIds_ok {s : Strategy} (hs : s ≠ .default) (x : FuncRet × List Payload) : ∃ l, makeIds s x = quiet (.ok l) := by
  unfold makeIds
  split
  · rw [mapM_mkId s hs]; exact ⟨_, rfl⟩
  · exact ⟨_, rfl⟩

/-- What listing the candidates logs, and how it ends. -/
theorem alternativeIds_cases (h : Hooks) (s : Strategy) :
    (s = .default ∧ alternativeIds h s = pure [])
    ∨ ((s = .ethernet ∨ s = .ip) ∧
        ((∃ x l, h.adapters.result = .ok x ∧ alternativeIds h s = ⟨h.adapters.entries, .ok l, []⟩)
        ∨ (∃ e, h.adapters.result = .throw e ∧ alternativeIds h s = ⟨h.adapters.entries, .throw e, h.adapters.what⟩)
        ∨ (h.adapters.result = .ub ∧ (alternativeIds h s).result = .ub)))
    ∨ (s = .disk ∧
        ((∃ x l, h.world.machine.disks = .ok x ∧ alternativeIds h s = ⟨[], .ok l, []⟩)
        ∨ (∃ e, h.world.machine.disks = .throw e ∧ alternativeIds h s = ⟨[], .throw e, h.lib e⟩)
        ∨ (h.world.machine.disks = .ub ∧ (alternativeIds h s).result = .ub))) := by
  have net : ∀ (s : Strategy) (b : Bool), s ≠ .default →
      (∃ x l, h.adapters.result = .ok x ∧ (generateEthernetIds h b >>= makeIds s) = ⟨h.adapters.entries, .ok l, []⟩)
      ∨ (∃ e, h.adapters.result = .throw e ∧ (generateEthernetIds h b >>= makeIds s) = ⟨h.adapters.entries, .throw e, h.adapters.what⟩)
      ∨ (h.adapters.result = .ub ∧ (generateEthernetIds h b >>= makeIds s).result = .ub) := by
    intro s b hs
    cases hr : h.adapters.result with
    | ok x =>
      left
      have hg : ∃ y, (generateEthernetIds h b).result = .ok y := by
        unfold generateEthernetIds
        rw [bind_result, hr]
        simp only [Outcome.ok_bind]
        split
        · exact ⟨_, rfl⟩
        · split <;> exact ⟨_, rfl⟩
      obtain ⟨y, hy⟩ := hg
      obtain ⟨l, hl⟩ := makeIds_ok hs y
      refine ⟨x, l, rfl, ?_⟩
      rw [bind_ok hy, generateEthernetIds_entries, hl]
      simp [quiet]
    | throw e =>
      right; left
      refine ⟨e, rfl, ?_⟩
      rw [generateEthernetIds_throw hr]
      exact bind_throw rfl
    | ub =>
      right; right
      refine ⟨rfl, ?_⟩
      rw [bind_result]
      unfold generateEthernetIds
      rw [bind_result, hr]; rfl
  cases s with
  | default => left; exact ⟨rfl, rfl⟩
  | ethernet => right; left; exact ⟨.inl rfl, net .ethernet false (by simp)⟩
  | ip => right; left; exact ⟨.inr rfl, net .ip true (by simp)⟩
  | disk =>
    right; right
    refine ⟨rfl, ?_⟩
    show _ ∨ _ ∨ _
    have hd : alternativeIds h .disk = quiet (generateDiskIds h.world.machine) h.lib >>= makeIds .disk := rfl
    rw [hd]
    cases hr : h.world.machine.disks with
    | ok x =>
      left
      have hg : ∃ y, generateDiskIds h.world.machine = .ok y := by
        unfold generateDiskIds
        rw [hr]
        simp only [Outcome.ok_bind]
        by_cases h1 : x.1 = .ok
        · by_cases h2 : x.2.length = 0
          · exact ⟨_, by simp [h1, h2]; rfl⟩
          · exact ⟨_, by simp [h1, h2]; rfl⟩
        · exact ⟨_, by simp [h1]; rfl⟩
      obtain ⟨y, hy⟩ := hg
      obtain ⟨l, hl⟩ := makeIds_ok (s := .disk) (by simp) y
      refine ⟨x, l, rfl, ?_⟩
      rw [hy, quiet_ok_bind, hl]; rfl
    | throw e =>
      right; left
      refine ⟨e, rfl, ?_⟩
      have hy : generateDiskIds h.world.machine = .throw e := by
        unfold generateDiskIds; rw [hr]; rfl
      rw [hy]
      exact bind_throw rfl
    | ub =>
      right; right
      refine ⟨rfl, ?_⟩
      rw [bind_result, quiet_result]
      unfold generateDiskIds; rw [hr]; rfl

theorem strategy_toNat (id : HwId) : id.strategy = ((id.d1.toNat / 32 : Nat) : Int) := by
  unfold HwId.strategy
  simp [UInt8.toNat_shiftRight, Nat.shiftRight_eq_div_pow]

theorem div32_lt (d : UInt8) : d.toNat / 32 < 8 := by
  have := d.toNat_lt; omega

/-- What is logged about an identifier, if it can be decoded without leaving its text. -/
theorem validate_logged {h : Hooks} {s : Bytes} (hbig : (identifierText s).length < 2 ^ 63) {ev : EventType}
    (hr : (validatePcSignature h s).result = .ok ev) : IdentifierLogged h s (validatePcSignature h s).entries := by
  unfold validatePcSignature at hr ⊢
  rw [catching_result] at hr
  generalize hu : (do
      let id ← ofString h.lib s
      let s ← getStrategy id.strategy
      validateIdentifier h s id : Tells EventType) = u at hr ⊢
  have caught : ∀ e, u.result = .throw e → (catching Exn.isLogicError u fun what => do
      log h.world.machine (.validating s what)
      return .identifiersMismatch).entries = u.entries ++ [.validating s u.what] := by
    intro e he
    unfold catching
    rw [he] at hr ⊢
    dsimp only at hr ⊢
    by_cases hp : e.isLogicError = true
    · rw [if_pos hp] at hr ⊢
      rw [bind_result] at hr
      obtain ⟨x, h1, _⟩ := Outcome.bind_eq_ok.mp hr
      rw [bind_entries_ok h1, log_ok h1]; simp
    · rw [if_neg hp] at hr; simp at hr
  have passed : ∀ a, u.result = .ok a → (catching Exn.isLogicError u fun what => do
      log h.world.machine (.validating s what)
      return .identifiersMismatch).entries = u.entries := by
    intro a ha
    unfold catching
    rw [ha]
  have nub : u.result ≠ .ub := by
    intro hc; rw [hc] at hr; simp at hr
  have ht := Output.identifierText_eq s
  have ht2 : identifierText s = (HwId.replaceByte 45 10 s).filter (fun b => b ≠ 10) := by
    rw [← ht]; congr 1; funext b; by_cases hb : b = 10 <;> simp [hb]
  have wrong : ∀ d, unbase64 (HwId.replaceByte 45 10 s) = .ok d → d.length ≠ 8 →
      u = ⟨[], .throw .logicError, b!"wrong identifier size " ++ s⟩ := by
    intro d hd h8
    have h1 : ofString h.lib s = ⟨[], .throw .logicError, b!"wrong identifier size " ++ s⟩ := by
      unfold ofString
      rw [hd, quiet_ok_bind]
      split
      · exact absurd rfl h8
      · rfl
    rw [← hu, bind_throw (e := .logicError) (by rw [h1])]
    simp [h1]
  rcases C23_unbase64_outcome _ _ ht2 hbig with ⟨h1, h2⟩ | ⟨h1, h2⟩ | ⟨h1, _⟩ | ⟨d, h1, h2, h3, _, h4⟩
  · have hw := wrong _ h1 (by simp)
    rw [caught .logicError (by rw [hw]), hw]
    refine .size (by intro hc; rw [hc] at h2; revert h2; decide) ?_
    unfold decodedSize; rw [if_pos h2]; decide
  · have h5 : ofString h.lib s = ⟨[], .throw .lengthError, h.lib .lengthError⟩ := by
      unfold ofString
      rw [h1]
      exact bind_throw rfl
    have hw : u = ⟨[], .throw .lengthError, h.lib .lengthError⟩ := by
      rw [← hu, bind_throw (e := .lengthError) (by rw [h5])]; simp [h5]
    rw [caught .lengthError (by rw [hw]), hw]
    exact .equals h2
  · exfalso
    apply nub
    rw [← hu, bind_result, ofString_result]
    unfold HwId.ofString; rw [h1]; rfl
  · have hd : decodedSize (identifierText s) = d.length := by
      unfold decodedSize; rw [if_neg (by omega), Output.paddings_eq h2, h4]
    by_cases h8 : d.length = 8
    · match d, h8, h1, hd with
      | [a, b, c, d, e, f, g, i], _, h1, hd =>
        have hid : HwId.ofString s = .ok ⟨a, b, c, d, e, f, g, i⟩ := by unfold HwId.ofString; rw [h1]
        have ho : ofString h.lib s = pure ⟨a, b, c, d, e, f, g, i⟩ := by
          unfold ofString
          rw [h1, quiet_ok_bind]
        rw [ho, pure_bind'] at hu
        have hst := strategy_toNat ⟨a, b, c, d, e, f, g, i⟩
        have hlt := div32_lt b
        dsimp only at hst
        generalize hid' : (⟨a, b, c, d, e, f, g, i⟩ : HwId) = id at *
        have hb : id.d1 = b := by rw [← hid']
        have hs3 : b.toNat / 32 = 0 ∨ b.toNat / 32 = 1 ∨ b.toNat / 32 = 2 ∨ 3 ≤ b.toNat / 32 := by omega
        have run : ∀ (st : Strategy), st ≠ .default → id.strategy = st.code → Licensecc.getStrategy id.strategy = .ok st →
            u = (do
              let ids ← alternativeIds h st
              return if ids.any (fun x => x.eq id) then .licenseOk else .identifiersMismatch) := by
          intro st hd hc hg
          have hg' : getStrategy id.strategy = quiet (.ok st) := by
            unfold getStrategy; rw [hg]; rfl
          rw [← hu, hg', quiet_ok_bind]
          unfold validateIdentifier
          rw [if_neg hd, if_pos hc]
        have netw : ∀ (st : Strategy), (st = .ethernet ∨ st = .ip) → id.strategy = st.code →
            Licensecc.getStrategy id.strategy = .ok st → b.toNat / 32 ≤ 1 →
            IdentifierLogged h s (catching Exn.isLogicError u fun what => do
              log h.world.machine (.validating s what)
              return .identifiersMismatch).entries := by
          intro st hst2 hc hg hle
          have hne : st ≠ .default := by rcases hst2 with rfl | rfl <;> simp
          have hr2 := run st hne hc hg
          rcases alternativeIds_cases h st with ⟨h5, _⟩ | ⟨_, h5⟩ | ⟨h5, _⟩
          · exact absurd h5 hne
          · rcases h5 with ⟨x, l, h6, h7⟩ | ⟨ex, h6, h7⟩ | ⟨h6, h7⟩
            · rw [bind_ok (a := l) (by rw [h7])] at hr2
              rw [passed _ (by rw [hr2]; rfl), hr2, h7]
              simp only [pure_entries, List.append_nil]
              exact .network hid (by rw [hb]; exact hle) h6
            · rw [bind_throw (e := ex) (by rw [h7])] at hr2
              rw [caught ex (by rw [hr2]), hr2, h7]
              exact .networkThrows hid (by rw [hb]; exact hle) h6
            · rw [bind_ub h7] at hr2
              exact absurd (by rw [hr2]) nub
          · rcases hst2 with rfl | rfl <;> simp at h5
        rcases hs3 with hs | hs | hs | hs
        · rw [hs] at hst
          exact netw .ethernet (.inl rfl) (by rw [hst]; rfl) (by rw [hst]; rfl) (by omega)
        · rw [hs] at hst
          exact netw .ip (.inr rfl) (by rw [hst]; rfl) (by rw [hst]; rfl) (by omega)
        · rw [hs] at hst
          have hr2 := run .disk (by simp) (by rw [hst]; rfl) (by rw [hst]; rfl)
          rcases alternativeIds_cases h .disk with ⟨h5, _⟩ | ⟨h5, _⟩ | ⟨_, h5⟩
          · simp at h5
          · simp at h5
          · rcases h5 with ⟨x, l, h6, h7⟩ | ⟨ex, h6, h7⟩ | ⟨h6, h7⟩
            · rw [bind_ok (a := l) (by rw [h7])] at hr2
              rw [passed _ (by rw [hr2]; rfl), hr2, h7]
              simp only [pure_entries, List.append_nil]
              exact .disks hid (by rw [hb]; exact hs) h6
            · rw [bind_throw (e := ex) (by rw [h7])] at hr2
              rw [caught ex (by rw [hr2]), hr2, h7]
              exact .disksThrow hid (by rw [hb]; exact hs) h6
            · rw [bind_ub h7] at hr2
              exact absurd (by rw [hr2]) nub
        · have hg : Licensecc.getStrategy id.strategy = .throw .logicError := by
            rw [hst]; unfold Licensecc.getStrategy
            rw [if_neg (by omega), if_neg (by omega), if_neg (by omega), if_neg (by omega)]
          have hw : u = ⟨[], .throw .logicError, b!"strategy not supported"⟩ := by
            rw [← hu]
            have : getStrategy id.strategy = ⟨[], .throw .logicError, b!"strategy not supported"⟩ := by
              unfold getStrategy; rw [hg]; rfl
            rw [this]
            exact bind_throw rfl
          rw [caught .logicError (by rw [hw]), hw]
          exact .unsupported hid (by rw [hb]; exact hs)
    · have hw := wrong _ h1 h8
      rw [caught .logicError (by rw [hw]), hw]
      refine .size (by intro he; rw [he] at h3; exact absurd h3 (by decide)) (by omega)

/-! ## Judging a licence -/

theorem checkClient_entries (h : Hooks) (l : FullLicense) (r : Registry) :
    (checkClient h l r).entries = match SMap.find? kClient l.limits with
      | none => []
      | some s => (validatePcSignature h s).entries := by
  unfold checkClient
  cases SMap.find? kClient l.limits with
  | none => rfl
  | some s =>
    dsimp only
    apply bind_entries_quiet
    intro ev
    exact bind_entries_quiet _ _ fun _ => rfl

/-- The checks log nothing, or what is logged about the identifier they reach. -/
theorem verifyLimits_entries (cfg : Config) (h : Hooks) (l : FullLicense) (r : Registry) (k : Nat) :
    (verifyLimits cfg h l r k).entries = []
    ∨ ∃ s, Output.Reaches cfg h.world l (h.world.clock k) s ∧ (verifyLimits cfg h l r k).entries = (validatePcSignature h s).entries := by
  unfold verifyLimits
  dsimp only
  split
  · rename_i hm
    cases h1 : checkExpiry h.world (h.world.clock k) l r with
    | throw e => left; rw [bind_throw (quiet_result _ _)]; rfl
    | ub => left; rw [bind_ub (quiet_result _ _)]; rfl
    | ok x =>
      obtain ⟨r1, v1⟩ := x
      rw [quiet_ok_bind]
      cases v1 with
      | false => left; rfl
      | true =>
        simp only [if_true]
        cases h2 : checkBegin h.world (h.world.clock k) l r1 with
        | throw e => left; rw [bind_throw (quiet_result _ _)]; rfl
        | ub => left; rw [bind_ub (quiet_result _ _)]; rfl
        | ok x =>
          obtain ⟨r2, v2⟩ := x
          rw [quiet_ok_bind]
          cases v2 with
          | false => left; rfl
          | true =>
            simp only [if_true]
            have hs : (do
                let (r, v) ← checkClient h l r2
                return (r, k + 1, v) : Tells (Registry × Nat × Bool)).entries = (checkClient h l r2).entries :=
              bind_entries_quiet _ _ fun _ => rfl
            rw [hs, checkClient_entries]
            cases hk : SMap.find? kClient l.limits with
            | none => left; rfl
            | some s => right; exact ⟨s, ⟨hm, (checkExpiry_ok h1).mp rfl, (checkBegin_ok h2).mp rfl, hk⟩, rfl⟩
  · left
    cases r.addEvent .corrupted (some l.source) with
    | ok x => rw [quiet_ok_bind]; rfl
    | throw e => rw [bind_throw (quiet_result _ _)]; rfl
    | ub => rw [bind_ub (quiet_result _ _)]; rfl

/-- If they come to an end, the checks look at every identifier they reach. -/
theorem verifyLimits_reaches {cfg : Config} {h : Hooks} {l : FullLicense} {r : Registry} {k : Nat} {x : Registry × Nat × Bool} {s : Bytes}
    (hx : (verifyLimits cfg h l r k).result = .ok x) (hs : Output.Reaches cfg h.world l (h.world.clock k) s) :
    (verifyLimits cfg h l r k).entries = (validatePcSignature h s).entries
      ∧ ∃ ev, (validatePcSignature h s).result = .ok ev ∧ (x.2.2 = true → ev = .licenseOk) := by
  obtain ⟨hm, he, hb, hc⟩ := hs
  unfold verifyLimits at hx ⊢
  dsimp only at hx ⊢
  rw [if_pos hm] at hx ⊢
  simp only [bind_result, quiet_result] at hx
  obtain ⟨⟨r1, v1⟩, h1, hx⟩ := Outcome.bind_eq_ok.mp hx
  rw [h1, quiet_ok_bind]
  have hv1 := (checkExpiry_ok h1).mpr he
  subst hv1
  simp only [if_true, bind_result, quiet_result] at hx ⊢
  obtain ⟨⟨r2, v2⟩, h2, hx⟩ := Outcome.bind_eq_ok.mp hx
  rw [h2, quiet_ok_bind]
  have hv2 := (checkBegin_ok h2).mpr hb
  subst hv2
  simp only [if_true, bind_result, quiet_result] at hx ⊢
  obtain ⟨⟨r3, v3⟩, h3, hx⟩ := Outcome.bind_eq_ok.mp hx
  rw [bind_entries_ok h3, checkClient_entries, hc]
  refine ⟨by simp, ?_⟩
  unfold checkClient at h3
  rw [hc] at h3
  simp only [bind_result, quiet_result] at h3
  obtain ⟨ev, h4, h5⟩ := Outcome.bind_eq_ok.mp h3
  obtain ⟨r4, _, h6⟩ := Outcome.bind_eq_ok.mp h5
  simp only [pure_result, Outcome.ok.injEq] at h6 hx
  obtain ⟨_, rfl⟩ := Prod.mk.inj h6
  subst hx
  exact ⟨ev, h4, fun h => of_decide_eq_true h⟩

theorem verifySignature_entries (h : Hooks) (l : FullLicense) (r : Registry) :
    (verifySignature h l r).entries = (h.verify l.printForSign l.signature).entries := by
  unfold verifySignature
  apply bind_entries_quiet
  intro good
  exact bind_entries_quiet _ _ fun _ => rfl

theorem judgeLoop_logged {cfg : Config} {h : Hooks} (hfa : Faithful h) {caller : Option Caller} {f : Bytes} {ps : List (Bytes × Bytes)}
    {ls : List FullLicense} (hp : LicencesOf f ps ls) {K : Nat}
    (hbig : ∀ p ∈ ps, ∀ k ≤ K, ∀ s, LooksAt cfg h.world (magicOf caller) f p.2 (h.world.clock k) s → (identifierText s).length < 2 ^ 63) :
    ∀ {r k x}, (judgeLoop cfg h caller r k ls).result = .ok x → x.2.1 ≤ K →
      TextsLogged cfg h (magicOf caller) f K ps (judgeLoop cfg h caller r k ls).entries := by
  induction hp with
  | nil => intro r k x _ _; exact .nil
  | @skip src text ps ls hc _ ih =>
    intro r k x hx hK
    have h2 := ih (fun p hp => hbig p (List.mem_cons_of_mem _ hp)) hx hK
    simpa using TextsLogged.cons (src := src) (Nat.zero_le K) (.none hc) h2
  | @take src text ps l ls hl _ ih =>
    intro r k x hx hK
    have ih := @ih (fun p hp => hbig p (List.mem_cons_of_mem _ hp))
    have hbig := hbig _ (List.mem_cons_self ..)
    simp only [judgeLoop] at hx ⊢
    rw [bind_result] at hx
    obtain ⟨⟨r1, good⟩, h1, hx⟩ := Outcome.bind_eq_ok.mp hx
    rw [bind_entries_ok h1, verifySignature_entries]
    have hv : h.world.verify l.printForSign l.signature = .ok good :=
      verifySignature_ok (by rw [verifySignature_result hfa] at h1; exact h1)
    simp only [bind_result, quiet_result] at hx
    obtain ⟨⟨i, k1⟩, h2, hx⟩ := Outcome.bind_eq_ok.mp hx
    simp only [h2, quiet_ok_bind]
    have hpr : (withMagic caller l).printForSign = l.printForSign := rfl
    have hsg : (withMagic caller l).signature = l.signature := rfl
    rw [hpr, hsg]
    have hcomp := complete_of_licence hl
    have hsig := hl.signature
    have hdata := signingData_of_licence hl
    simp only at hx ⊢
    cases good with
    | false =>
      simp only [Bool.false_eq_true, if_false, bind_result] at hx ⊢
      obtain ⟨⟨r3, k3, oks, errs⟩, h3, hx⟩ := Outcome.bind_eq_ok.mp hx
      simp only [pure_result, Outcome.ok.injEq] at hx
      subst hx
      rw [bind_entries_ok h3]
      refine .cons (k := 0) (Nat.zero_le _) (.signature hcomp hsig hdata ?_) (by simpa using ih h3 hK)
      rintro ⟨s, hs⟩
      have := ((Output.reaches_iff hl).mpr hs).1
      rw [hv] at this; simp at this
    | true =>
      simp only [if_true, bind_result] at hx ⊢
      obtain ⟨⟨r2, k2, v⟩, h3, hx⟩ := Outcome.bind_eq_ok.mp hx
      rw [bind_entries_ok h3, ← List.append_assoc]
      simp only [bind_result] at hx
      obtain ⟨⟨r3, k3, oks, errs⟩, h4, hx⟩ := Outcome.bind_eq_ok.mp hx
      simp only [pure_result, Outcome.ok.injEq] at hx
      subst hx
      simp only
      rw [bind_entries_ok h4]
      have hk2 : k2 = k1 + 1 := (verifyLimits_ok (by rw [verifyLimits_result hfa] at h3; exact h3)).1
      have hk3 : k2 ≤ k3 := by
        rw [judgeLoop_result hfa] at h4
        exact judged_mono (judgeLoop_judged h4)
      have hk1 : k1 ≤ K := by simp only at hK; omega
      refine .cons (k := k1) hk1 ?_ (by simpa using ih h4 hK)
      by_cases hr : ∃ s, Output.Reaches cfg h.world (withMagic caller l) (h.world.clock k1) s
      · obtain ⟨s, hr⟩ := hr
        obtain ⟨e1, ev, e2, _⟩ := verifyLimits_reaches h3 hr
        have hlook := (Output.reaches_iff hl).mp ⟨hv, hr⟩
        rw [e1]
        exact .identifier hsig hdata hlook (validate_logged (hbig k1 hk1 s hlook) e2)
      · rcases verifyLimits_entries cfg h (withMagic caller l) r1 k1 with h0 | ⟨s, h0, _⟩
        · rw [h0, List.append_nil]
          exact .signature hcomp hsig hdata (fun ⟨s, hs⟩ => hr ⟨s, ((Output.reaches_iff hl).mpr hs).2⟩)
        · exact absurd ⟨s, h0⟩ hr

/-! ## Reading the licences -/

/-- Is it the search beside the executable? -/
def besideModule : Locator → Bool
  | .applicationFolder => true
  | _ => false

theorem licenseLocations_entries (w : World) {l : Locator} {r : Registry} {x : Registry × List Bytes × Bool}
    (hx : (licenseLocations w l r).result = .ok x) :
    (licenseLocations w l r).entries = if besideModule l = true ∧ w.moduleName = none then [.moduleName] else [] := by
  cases l with
  | applicationFolder =>
    cases hm : w.moduleName with
    | none =>
      simp only [licenseLocations, hm] at hx ⊢
      rw [bind_result] at hx
      obtain ⟨y, h1, _⟩ := Outcome.bind_eq_ok.mp hx
      rw [bind_entries_ok h1, log_ok h1]; simp [besideModule]
    | some m => simp [licenseLocations, hm, besideModule]
  | environmentVarLocation => simp [licenseLocations, besideModule]
  | environmentVarData => simp [licenseLocations, besideModule]
  | externalDefinition loc => simp [licenseLocations, besideModule]

theorem readLocators_entries {w : World} {f : Bytes} {ls : List Locator} :
    ∀ {r x}, (readLocators w f r ls).result = .ok x → (readLocators w f r ls).entries
      = ls.flatMap fun l => if besideModule l = true ∧ w.moduleName = none then [.moduleName] else [] := by
  induction ls with
  | nil => intro r x _; rfl
  | cons l ls ih =>
    intro r x hx
    simp only [readLocators, bind_result] at hx ⊢
    obtain ⟨⟨r1, locs, b⟩, h1, hx⟩ := Outcome.bind_eq_ok.mp hx
    rw [bind_entries_ok h1, licenseLocations_entries w h1]
    simp only [bind_result, quiet_result] at hx
    obtain ⟨⟨r2, lics⟩, h2, hx⟩ := Outcome.bind_eq_ok.mp hx
    simp only
    rw [h2, quiet_ok_bind]
    simp only at hx
    obtain ⟨⟨r3, lics'⟩, h3, hx⟩ := Outcome.bind_eq_ok.mp hx
    simp only
    rw [bind_entries_ok h3, ih h3, List.flatMap_cons]
    simp only [pure_entries, List.append_nil]

/-- Reading licences, if it comes to an end, logs only that the name of the executable could not be determined. -/
theorem readLicenses_entries {cfg : Config} {w : World} {hint : Option LicenseLocation} {f : Bytes} {x : Registry × List FullLicense}
    (hx : (readLicenses cfg w hint f).result = .ok x) :
    (readLicenses cfg w hint f).entries = if cfg.nearModule = true ∧ w.moduleName = none then [.moduleName] else [] := by
  have hfl : (activeStrategies cfg hint).flatMap (fun l => if besideModule l = true ∧ w.moduleName = none
      then [Entry.moduleName] else []) = if cfg.nearModule = true ∧ w.moduleName = none then [.moduleName] else [] := by
    unfold activeStrategies
    cases cfg.nearModule <;> cases cfg.withEnvVar <;> cases hint <;> cases w.moduleName <;> simp [besideModule]
  unfold readLicenses at hx ⊢
  dsimp only at hx ⊢
  split
  · rename_i hs
    rw [← hfl]
    rw [List.isEmpty_iff] at hs
    simp [hs]
  · rename_i hs
    rw [if_neg hs, bind_result] at hx
    obtain ⟨⟨r, lics⟩, h1, hx⟩ := Outcome.bind_eq_ok.mp hx
    rw [bind_entries_ok h1, readLocators_entries h1, hfl]
    simp only
    split <;> first
      | (split <;> rfl)
      | rfl

/-- **C83**: if `acquire_license` returns, it logged, in this order: that the name of the executable could not be determined, if licences
    are looked for beside it; and text by text in the order in which the texts are located what the check of the signature logs and,
    if everything else is in order, what is logged about the hardware identifier; and nothing else. -/
theorem C83_acquire {cfg : Config} {h : Hooks} (hfa : Faithful h) {caller : Option Caller} {hint : Option LicenseLocation}
    {out : Option LicInfo} {res : AcquireResult} {f : Bytes} (hf : FeatureIs cfg caller f)
    (hx : (acquire cfg h caller hint out).result = .ok res)
    (hbig : ∀ p ∈ located cfg h.world hint, ∀ k ≤ res.ticks, ∀ s, LooksAt cfg h.world (magicOf caller) f p.2 (h.world.clock k) s →
      (identifierText s).length < 2 ^ 63) :
    ∃ l, TextsLogged cfg h (magicOf caller) f res.ticks (located cfg h.world hint) l
      ∧ (acquire cfg h caller hint out).entries
        = (if cfg.nearModule = true ∧ h.world.moduleName = none then [.moduleName] else []) ++ l := by
  have h0 := hx
  rw [C83_same hfa] at h0
  obtain ⟨f', r, lics, es, hf', hr, hes, hc, _⟩ := acquire_cases h0
  obtain rfl : f = f' := featureIs_unique hf hf'
  obtain ⟨hl, _⟩ := licencesOf_located hes
  have hfo : featureOf cfg caller = .ok f := (featureOf_iff).mpr hf
  have hr' : (readLicenses cfg h.world hint f).result = .ok (r, lics) := by rw [readLicenses_result, hr]
  unfold acquire at hx ⊢
  rw [hfo] at hx ⊢
  rw [quiet_ok_bind] at hx ⊢
  rw [bind_entries_ok hr', readLicenses_entries hr']
  simp only [bind_result, hr', Outcome.ok_bind] at hx
  simp only
  refine ⟨_, ?_, rfl⟩
  unfold judge at hx ⊢
  rcases hc with ⟨rfl, _⟩ | ⟨hne, vs, es', oks, errs, r1, _, hj, _⟩
  · simp only [quiet_entries]
    have h1 : (judgeLoop cfg h caller r 0 []).result = .ok (r, 0, [], []) := rfl
    exact judgeLoop_logged hfa hl hbig h1 (Nat.zero_le _)
  · have hj' : (judgeLoop cfg h caller r 0 lics).result = .ok (r1, res.ticks, oks, errs) := by rw [judgeLoop_result hfa, hj]
    have h2 := judgeLoop_logged hfa hl hbig hj' (Nat.le_refl _)
    cases lics with
    | nil => exact absurd rfl hne
    | cons l ls =>
      simp only
      rw [bind_entries_ok hj']
      cases oks <;> simpa using h2

/-! ## identify_pc -/

theorem decimal_text (n : Int) : IntText n (decimal n) := by
  unfold decimal IntText
  by_cases h : n < 0
  · rw [if_pos h]
    right
    have e : (-n).toNat = n.natAbs := by omega
    refine ⟨h, _, rfl, ?_, Output.number_head (by omega)⟩
    rw [e]
    exact Inspector.C70_number (by omega) (by omega) _
  · rw [if_neg h]
    left
    have e : n.toNat = n.natAbs := by omega
    refine ⟨by omega, ?_, fun hn => Output.number_head (by omega)⟩
    rw [e]
    exact Inspector.C70_number (by omega) (by omega) _

theorem first_some {h : Hooks} (hf : Faithful h) {s : Strategy} (hs : s ≠ .default) {id : HwId}
    (hr : (generateFirst h s).result = .ok (some id)) : ∃ b, Identifies h.world.machine s.code b := by
  have hr : Licensecc.generateFirst h.world.machine s = .ok (some id) := by
    rw [← hr]; simp [generateFirst, Licensecc.generateFirst, alternativeIds_result hf]
  exact ⟨_, ((generateFirst_bytes _ s hs id).mp hr).2⟩

theorem first_none {h : Hooks} (hf : Faithful h) {s : Strategy} (hs : s ≠ .default)
    (hr : (generateFirst h s).result = .ok none) (b : Bytes) : ¬ Identifies h.world.machine s.code b := by
  have hr : Licensecc.generateFirst h.world.machine s = .ok none := by
    rw [← hr]; simp [generateFirst, Licensecc.generateFirst, alternativeIds_result hf]
  intro hi
  obtain ⟨s', hs', x, hx, rfl⟩ := identifies_known hi
  have h2 := (generateFirst_bytes _ s hs x).mpr ⟨hx, hi⟩
  rw [hr] at h2; simp at h2

theorem first_cases {h : Hooks} (hf : Faithful h) {s : Strategy} (hs : s ≠ .default) :
    (∃ b id, Identifies h.world.machine s.code b ∧ (alternativeIds h s).entries = (generateFirst h s).entries
        ∧ generateFirst h s = ⟨(alternativeIds h s).entries, .ok (some id), []⟩)
    ∨ (∃ l, (∀ b, ¬ Identifies h.world.machine s.code b) ∧ (alternativeIds h s).result = .ok l
        ∧ generateFirst h s = ⟨(alternativeIds h s).entries, .ok none, []⟩)
    ∨ (∃ e, (alternativeIds h s).result = .throw e ∧ generateFirst h s = ⟨(alternativeIds h s).entries, .throw e, (alternativeIds h s).what⟩)
    ∨ ((alternativeIds h s).result = .ub ∧ (generateFirst h s).result = .ub) := by
  cases hr : (alternativeIds h s).result with
  | ok l =>
    have hg : generateFirst h s = ⟨(alternativeIds h s).entries, .ok l.head?, []⟩ := by
      unfold generateFirst; rw [bind_ok hr]; simp [pure]
    cases hl : l.head? with
    | none =>
      rw [hl] at hg
      right; left
      exact ⟨l, first_none hf hs (by rw [hg]), rfl, hg⟩
    | some id =>
      rw [hl] at hg
      left
      obtain ⟨b, hb⟩ := first_some hf hs (id := id) (by rw [hg])
      exact ⟨b, id, hb, by rw [hg], hg⟩
  | throw e =>
    right; right; left
    exact ⟨e, rfl, by unfold generateFirst; rw [bind_throw hr]⟩
  | ub =>
    right; right; right
    exact ⟨rfl, by unfold generateFirst; rw [bind_ub hr]⟩

/-- The search for an identifier by a strategy: what is logged and how it ends. -/
def seek (h : Hooks) (n : Int) : Tells HwId := do
  let s ← getStrategy n
  match ← generatePcId h s with
  | none => quiet (.throw .logicError) fun _ => b!"strategy " ++ decimal s.code ++ b!" failed"
  | some id => pure id

theorem net_cases {h : Hooks} (hf : Faithful h) {s : Strategy} (hs : s = .ethernet ∨ s = .ip) :
    (∃ b id, Identifies h.world.machine s.code b ∧ generateFirst h s = ⟨h.adapters.entries, .ok (some id), []⟩)
    ∨ (∃ x, h.adapters.result = .ok x ∧ (∀ b, ¬ Identifies h.world.machine s.code b)
        ∧ generateFirst h s = ⟨h.adapters.entries, .ok none, []⟩)
    ∨ (∃ e, h.adapters.result = .throw e ∧ generateFirst h s = ⟨h.adapters.entries, .throw e, h.adapters.what⟩)
    ∨ (generateFirst h s).result = .ub := by
  have hne : s ≠ .default := by rcases hs with rfl | rfl <;> simp
  have hnd : s ≠ .disk := by rcases hs with rfl | rfl <;> simp
  rcases alternativeIds_cases h s with ⟨h1, _⟩ | ⟨_, h1⟩ | ⟨h1, _⟩
  · exact absurd h1 hne
  · rcases first_cases hf hne with ⟨b, id, h2, _, h3⟩ | ⟨l, h2, h4, h3⟩ | ⟨e, h2, h3⟩ | ⟨_, h3⟩
    · left
      rcases h1 with ⟨x, l, h6, h7⟩ | ⟨ex, h6, h7⟩ | ⟨h6, h7⟩
      · rw [h7] at h3; exact ⟨b, id, h2, h3⟩
      · unfold generateFirst at h3; rw [bind_throw (e := ex) (by rw [h7])] at h3; simp at h3
      · unfold generateFirst at h3; rw [bind_ub h7] at h3; simp at h3
    · right; left
      rcases h1 with ⟨x, l, h6, h7⟩ | ⟨ex, h6, h7⟩ | ⟨h6, h7⟩
      · rw [h7] at h3; exact ⟨x, h6, h2, h3⟩
      · rw [h7] at h4; simp at h4
      · rw [h7] at h4; simp at h4
    · right; right; left
      rcases h1 with ⟨x, l, h6, h7⟩ | ⟨ex, h6, h7⟩ | ⟨h6, h7⟩
      · rw [h7] at h2; simp at h2
      · rw [h7] at h2 h3
        simp only [Outcome.throw.injEq] at h2
        subst h2
        exact ⟨_, h6, h3⟩
      · rw [h7] at h2; simp at h2
    · right; right; right; exact h3
  · exact absurd h1 hnd

theorem disk_cases {h : Hooks} (hf : Faithful h) :
    (∃ b id, Identifies h.world.machine 2 b ∧ generateFirst h .disk = ⟨[], .ok (some id), []⟩)
    ∨ (∃ x, h.world.machine.disks = .ok x ∧ (∀ b, ¬ Identifies h.world.machine 2 b)
        ∧ generateFirst h .disk = ⟨[], .ok none, []⟩)
    ∨ (∃ e, h.world.machine.disks = .throw e ∧ generateFirst h .disk = ⟨[], .throw e, h.lib e⟩)
    ∨ (generateFirst h .disk).result = .ub := by
  have hne : Strategy.disk ≠ .default := by simp
  rcases alternativeIds_cases h .disk with ⟨h1, _⟩ | ⟨h1, _⟩ | ⟨_, h1⟩
  · simp at h1
  · simp at h1
  · rcases first_cases hf hne with ⟨b, id, h2, _, h3⟩ | ⟨l, h2, h4, h3⟩ | ⟨e, h2, h3⟩ | ⟨_, h3⟩
    · left
      rcases h1 with ⟨x, l, h6, h7⟩ | ⟨ex, h6, h7⟩ | ⟨h6, h7⟩
      · rw [h7] at h3; exact ⟨b, id, h2, h3⟩
      · unfold generateFirst at h3; rw [bind_throw (e := ex) (by rw [h7])] at h3; simp at h3
      · unfold generateFirst at h3; rw [bind_ub h7] at h3; simp at h3
    · right; left
      rcases h1 with ⟨x, l, h6, h7⟩ | ⟨ex, h6, h7⟩ | ⟨h6, h7⟩
      · rw [h7] at h3; exact ⟨x, h6, h2, h3⟩
      · rw [h7] at h4; simp at h4
      · rw [h7] at h4; simp at h4
    · right; right; left
      rcases h1 with ⟨x, l, h6, h7⟩ | ⟨ex, h6, h7⟩ | ⟨h6, h7⟩
      · rw [h7] at h2; simp at h2
      · rw [h7] at h2 h3
        simp only [Outcome.throw.injEq] at h2
        subst h2
        exact ⟨_, h6, h3⟩
      · rw [h7] at h2; simp at h2
    · right; right; right; exact h3

/-- How a search ends. -/
def Ends (u : Tells HwId) (l : List Entry) : Option Bytes → Prop
  | none => ∃ id, u = ⟨l, .ok id, []⟩
  | some w => ∃ e, u = ⟨l, .throw e, w⟩

theorem getStrategy_quiet {n : Int} {s : Strategy} (h : Licensecc.getStrategy n = .ok s) : getStrategy n = quiet (.ok s) := by
  unfold getStrategy; rw [h]; rfl

theorem getStrategy_throw {n : Int} (h : n < -1 ∨ 2 < n) : getStrategy n = ⟨[], .throw .logicError, b!"strategy not supported"⟩ := by
  have : Licensecc.getStrategy n = .throw .logicError := by
    unfold Licensecc.getStrategy
    rw [if_neg (by omega), if_neg (by omega), if_neg (by omega), if_neg (by omega)]
  unfold getStrategy; rw [this]; rfl

theorem tryNone (h : Hooks) (n : Int) (ns : List Int) (hn : n < -1 ∨ 2 < n) :
    tryStrategies h (n :: ns) = ⟨[], .throw .logicError, b!"strategy not supported"⟩ := by
  unfold tryStrategies
  rw [getStrategy_throw hn]
  exact bind_throw rfl

theorem tryFirst_some {h : Hooks} {n : Int} {s : Strategy} {ns : List Int} {l : List Entry} {id : HwId}
    (hn : Licensecc.getStrategy n = .ok s) (hg : generateFirst h s = ⟨l, .ok (some id), []⟩) :
    tryStrategies h (n :: ns) = ⟨l, .ok (some id), []⟩ := by
  rw [tryStrategies, getStrategy_quiet hn, quiet_ok_bind, hg, bind_ok (a := some id) rfl]
  simp [pure]

theorem tryFirst_none {h : Hooks} {n n' : Int} {s : Strategy} {ns : List Int} {l : List Entry}
    (hn : Licensecc.getStrategy n = .ok s) (hg : generateFirst h s = ⟨l, .ok none, []⟩) (hn' : n' < -1 ∨ 2 < n') :
    tryStrategies h (n :: n' :: ns) = ⟨l, .throw .logicError, b!"strategy not supported"⟩ := by
  rw [tryStrategies, getStrategy_quiet hn, quiet_ok_bind, hg, bind_ok (a := none) rfl]
  simp [tryNone h n' ns hn']

theorem tryFirst_throw {h : Hooks} {n : Int} {s : Strategy} {ns : List Int} {l : List Entry} {e : Exn} {w : Bytes}
    (hn : Licensecc.getStrategy n = .ok s) (hg : generateFirst h s = ⟨l, .throw e, w⟩) :
    tryStrategies h (n :: ns) = ⟨l, .throw e, w⟩ := by
  rw [tryStrategies, getStrategy_quiet hn, quiet_ok_bind, hg]
  exact bind_throw rfl

theorem tryFirst_ub {h : Hooks} {n : Int} {s : Strategy} {ns : List Int}
    (hn : Licensecc.getStrategy n = .ok s) (hg : (generateFirst h s).result = .ub) :
    (tryStrategies h (n :: ns)).result = .ub := by
  rw [tryStrategies, getStrategy_quiet hn, quiet_ok_bind, bind_ub hg]

theorem seek_sought {h : Hooks} (hf : Faithful h) (n : Int) (hu : (seek h n).result ≠ .ub) :
    ∃ l why, Sought h n l why ∧ Ends (seek h n) l why := by
  unfold seek at hu ⊢
  by_cases hn : n < -1 ∨ 2 < n
  · refine ⟨_, _, .other hn, .logicError, ?_⟩
    rw [getStrategy_throw hn]
    exact bind_throw rfl
  · have hn' : n = -1 ∨ n = 0 ∨ n = 1 ∨ n = 2 := by omega
    have net : ∀ s : Strategy, (s = .ethernet ∨ s = .ip) → n = s.code → Licensecc.getStrategy n = .ok s →
        ∃ l why, Sought h n l why ∧ Ends (do
          let s ← getStrategy n
          match ← generatePcId h s with
          | none => quiet (.throw .logicError) fun _ => b!"strategy " ++ decimal s.code ++ b!" failed"
          | some id => pure id) l why := by
      intro s hs hc hg
      have hne : s ≠ .default := by rcases hs with rfl | rfl <;> simp
      have h01 : n = 0 ∨ n = 1 := by rcases hs with rfl | rfl <;> simp [hc, Strategy.code]
      rw [getStrategy_quiet hg, quiet_ok_bind] at hu ⊢
      have hp : generatePcId h s = generateFirst h s := by unfold generatePcId; rw [if_neg hne]
      rw [hp] at hu ⊢
      rcases net_cases hf hs with ⟨b, id, h1, h2⟩ | ⟨x, h1, h2, h3⟩ | ⟨e, h1, h2⟩ | h1
      · rw [h2, bind_ok (a := some id) rfl]
        exact ⟨_, _, .network h01 (by rw [hc]; exact h1), id, by simp [pure]⟩
      · rw [h3, bind_ok (a := none) rfl]
        refine ⟨_, _, .networkNone h01 h1 (by rw [hc]; exact h2) (decimal_text n), .logicError, ?_⟩
        rw [hc]; simp [quiet]
      · rw [h2, bind_throw (e := e) rfl]
        exact ⟨_, _, .networkThrows h01 h1, e, rfl⟩
      · exact absurd (by rw [bind_ub h1]) hu
    rcases hn' with rfl | rfl | rfl | rfl
    · rw [getStrategy_quiet (s := .default) rfl, quiet_ok_bind] at hu ⊢
      have hp : generatePcId h .default = (do tryStrategies h (availableStrategies (← quiet h.world.machine.exec h.lib))) := rfl
      rw [hp] at hu ⊢
      have fromTry : ∀ (e : ExecSummary), h.world.machine.exec = .ok e →
          (do tryStrategies h (availableStrategies (← quiet h.world.machine.exec h.lib)) : Tells (Option HwId))
            = tryStrategies h (availableStrategies e) := by
        intro e he; rw [he, quiet_ok_bind]
      cases he : h.world.machine.exec with
      | throw e =>
        refine ⟨_, _, .unknownEnvironment he, e, ?_⟩
        rw [bind_throw (e := e) (by rw [bind_result]; rfl)]
        rw [bind_throw (e := e) rfl]
        rfl
      | ub =>
        exfalso; apply hu
        rw [bind_result, bind_result, he]; rfl
      | ok e =>
        rw [fromTry e he] at hu
        rw [show quiet (Outcome.ok e) h.lib = quiet (Outcome.ok e) from rfl, quiet_ok_bind]
        have dockerCase : availableStrategies e = [-2] →
            (e.virtualization = .container ∧ e.isDocker = true ∨ e.virtualization = .vm ∧ e.isCloud = true) →
            ∃ l why, Sought h (-1) l why ∧ Ends (do
              match ← tryStrategies h (availableStrategies e) with
              | none => quiet (.throw .logicError) fun _ => b!"strategy " ++ decimal Strategy.default.code ++ b!" failed"
              | some id => pure id) l why := by
          intro ha hv
          rw [ha, tryNone h (-2) [] (by omega)]
          exact ⟨_, _, .dockerOrCloud he hv, .logicError, bind_throw rfl⟩
        have virtualCase : availableStrategies e = [0, -2] →
            (e.virtualization = .container ∧ e.isDocker = false ∨ e.virtualization = .vm ∧ e.isCloud = false) →
            ∃ l why, Sought h (-1) l why ∧ Ends (do
              match ← tryStrategies h (availableStrategies e) with
              | none => quiet (.throw .logicError) fun _ => b!"strategy " ++ decimal Strategy.default.code ++ b!" failed"
              | some id => pure id) l why := by
          intro ha hv
          rcases net_cases hf (.inl rfl : Strategy.ethernet = .ethernet ∨ _) with ⟨b, id, h1, h2⟩ | ⟨x, h1, h2, h3⟩ | ⟨ex, h1, h2⟩ | h1
          · refine ⟨_, _, .virtual he hv h1, id, ?_⟩
            rw [ha, tryFirst_some rfl h2, bind_ok (a := some id) rfl]
            simp [pure]
          · refine ⟨_, _, .virtualNone he hv h1 h2, .logicError, ?_⟩
            rw [ha, tryFirst_none rfl h3 (by omega)]
            exact bind_throw rfl
          · refine ⟨_, _, .virtualThrows he hv h1, ex, ?_⟩
            rw [ha, tryFirst_throw rfl h2]
            exact bind_throw rfl
          · refine absurd ?_ hu
            rw [ha, bind_ub (tryFirst_ub rfl h1)]
        cases hv : e.virtualization with
        | container =>
          cases hd : e.isDocker with
          | true => exact dockerCase (by simp [availableStrategies, hv, hd]) (.inl ⟨hv, hd⟩)
          | false => exact virtualCase (by simp [availableStrategies, hv, hd]) (.inl ⟨hv, hd⟩)
        | vm =>
          cases hd : e.isCloud with
          | true => exact dockerCase (by simp [availableStrategies, hv, hd]) (.inr ⟨hv, hd⟩)
          | false => exact virtualCase (by simp [availableStrategies, hv, hd]) (.inr ⟨hv, hd⟩)
        | none =>
          have ha : availableStrategies e = [2, 4, -2] := by simp [availableStrategies, hv]
          rcases disk_cases hf with ⟨b, id, h1, h2⟩ | ⟨x, h1, h2, h3⟩ | ⟨ex, h1, h2⟩ | h1
          · refine ⟨_, _, .bareMetal he hv h1, id, ?_⟩
            rw [ha, tryFirst_some rfl h2, bind_ok (a := some id) rfl]
            simp [pure]
          · refine ⟨_, _, .bareMetalNone he hv h1 h2, .logicError, ?_⟩
            rw [ha, tryFirst_none rfl h3 (by omega)]
            exact bind_throw rfl
          · refine ⟨_, _, .bareMetalThrows he hv h1, ex, ?_⟩
            rw [ha, tryFirst_throw rfl h2]
            exact bind_throw rfl
          · refine absurd ?_ hu
            rw [ha, bind_ub (tryFirst_ub rfl h1)]
    · exact net .ethernet (.inl rfl) rfl rfl
    · exact net .ip (.inr rfl) rfl rfl
    · rw [getStrategy_quiet (s := .disk) rfl, quiet_ok_bind] at hu ⊢
      have hp : generatePcId h .disk = generateFirst h .disk := rfl
      rw [hp] at hu ⊢
      rcases disk_cases hf with ⟨b, id, h1, h2⟩ | ⟨x, h1, h2, h3⟩ | ⟨e, h1, h2⟩ | h1
      · rw [h2, bind_ok (a := some id) rfl]
        exact ⟨_, _, .disk h1, id, by simp [pure]⟩
      · rw [h3, bind_ok (a := none) rfl]
        exact ⟨_, _, .diskNone h1 h2, .logicError, rfl⟩
      · rw [h2, bind_throw (e := e) rfl]
        exact ⟨_, _, .diskThrows h1, e, rfl⟩
      · exact absurd (by rw [bind_ub h1]) hu

theorem bind_assoc' {α β γ : Type} (x : Tells α) (f : α → Tells β) (g : β → Tells γ) : (x >>= f) >>= g = x >>= fun a => f a >>= g := by
  cases hx : x.result with
  | throw e => rw [bind_throw hx, bind_throw hx, bind_throw rfl]
  | ub => rw [bind_ub hx, bind_ub hx, bind_ub rfl]
  | ok a =>
    rw [bind_ok hx, bind_ok hx]
    cases hf : (f a).result with
    | throw e => rw [bind_throw hf, bind_throw (e := e) rfl]
    | ub => rw [bind_ub hf, bind_ub rfl]
    | ok b => rw [bind_ok hf, bind_ok (a := b) rfl]; simp

theorem signature_seek (h : Hooks) (strategy : Int) :
    generateUserPcSignature h strategy = warnUnknown h.world.machine strategy >>= fun _ =>
      seek h (selectStrategy h.world.machine.strategyVar strategy).1 >>= fun id =>
        quiet ((id.setUseEnvVar (selectStrategy h.world.machine.strategyVar strategy).2).print) := by
  unfold generateUserPcSignature seek
  congr 1; funext _
  rw [bind_assoc']
  congr 1; funext s
  rw [bind_assoc']
  congr 1; funext o
  cases o with
  | none =>
    dsimp only
    rw [bind_throw (e := .logicError) (quiet_result _ _)]
    rfl
  | some id => dsimp only; rw [pure_bind']

theorem warnUnknown_logged {m : Machine} {strategy : Int} {x : Unit} (hr : (warnUnknown m strategy).result = .ok x) :
    VariableLogged m.strategyVar strategy (warnUnknown m strategy).entries := by
  unfold warnUnknown at hr ⊢
  by_cases hu : strategyUnknown m.strategyVar strategy = true
  · rw [if_pos hu] at hr ⊢
    rw [log_ok hr]
    have h1 := (variableUnknown_iff _ _).mpr hu
    have h3 := h1
    obtain ⟨_, v, n, h2, _⟩ := h3
    rw [h2] at h1 ⊢
    exact .unknown h1 rfl
  · rw [if_neg hu]
    exact .otherwise fun h1 => hu ((variableUnknown_iff _ _).mp h1)

/-- **C83**: if `identify_pc` returns, it logged, in this order: a value of the environment variable that names no strategy; what listing
    the adapters logs, if they are looked at; and, exactly if it returns no identifier, the reason.  Without enough memory for an
    identifier nothing is logged. -/
theorem C83_identify {h : Hooks} (hf : Faithful h) {strategy : Int} {buf : Option Bytes} {size : Nat} {r : IdentifyResult}
    (hr : (identifyPc h strategy buf size).result = .ok r) :
    if buf.isSome ∧ 19 < size then IdentifyLogged h strategy (identifyPc h strategy buf size).entries r.ret
    else (identifyPc h strategy buf size).entries = [] := by
  unfold identifyPc at hr ⊢
  cases buf with
  | none => simp
  | some mem =>
    by_cases hs : 19 < size
    · rw [if_pos ⟨rfl, hs⟩]
      simp only [gt_iff_lt, hs, if_true] at hr ⊢
      rw [catching_result] at hr
      have hbody : (do
          let id ← generateUserPcSignature h strategy
          let (mem', _) ← quiet (mstrlcpy mem (id ++ [0]) size)
          return (⟨true, size, some mem'⟩ : IdentifyResult) : Tells IdentifyResult).result ≠ .ub := by
        intro h0; rw [h0] at hr; simp at hr
      rw [signature_seek, bind_assoc'] at hbody hr ⊢
      obtain ⟨n, used, hsel⟩ : ∃ n used, selectStrategy h.world.machine.strategyVar strategy = (n, used) := ⟨_, _, rfl⟩
      have hused := (strategyUsed_iff _ _ _ _).mpr hsel
      rw [hsel] at hbody hr ⊢
      cases hw : (warnUnknown h.world.machine strategy).result with
      | throw e =>
        rw [warnUnknown_result] at hw
        unfold Machine.warnUnknown Machine.logged at hw
        split at hw
        · split at hw <;> simp at hw
        · simp at hw
      | ub => rw [bind_ub hw] at hbody; simp at hbody
      | ok x =>
        have hv := warnUnknown_logged hw
        rw [bind_ok hw] at hbody hr ⊢
        simp only [bind_assoc'] at hbody hr ⊢
        have hseek : (seek h n).result ≠ .ub := by
          intro h0; rw [bind_ub h0] at hbody; simp at hbody
        obtain ⟨l, why, hsought, hends⟩ := seek_sought hf n hseek
        cases why with
        | none =>
          obtain ⟨id, hid⟩ := hends
          rw [hid, bind_ok (a := id) rfl, print_dashed, quiet_ok_bind] at hbody hr ⊢
          cases hm : mstrlcpy mem (dashed (rfc4648 (id.setUseEnvVar used).toBytes) ++ [0]) size with
          | throw e => exact absurd hm (Resources.mstrlcpy_no_throw _ _ _ e)
          | ub => rw [hm, bind_ub rfl] at hbody; simp at hbody
          | ok y =>
            rw [hm, quiet_ok_bind] at hr
            rw [quiet_ok_bind]
            simp only [pure_result, Outcome.ok.injEq] at hr
            subst hr
            simp only [catching, pure_entries, pure_result, List.append_nil]
            exact .found hused hv hsought
        | some w =>
          obtain ⟨e, he⟩ := hends
          rw [he, bind_throw (e := e) rfl] at hr ⊢
          simp only [if_true, bind_result, pure_result] at hr
          simp only [catching, if_true]
          cases hl : (log h.world.machine (.identifying w)).result with
          | throw e => rw [hl] at hr; simp at hr
          | ub => rw [hl] at hr; simp at hr
          | ok y =>
            rw [hl] at hr
            simp only [Outcome.ok_bind, Outcome.ok.injEq] at hr
            subst hr
            rw [bind_entries_ok hl, log_ok hl]
            simp only [pure_entries, List.append_nil]
            exact .failed hused hv hsought
    · rw [if_neg (by simp [hs])]
      simp [hs]

/-! ## Linux -/

theorem verify_result (o : OpenSsl) (d s : Bytes) : (verify o d s).result = o.verify d s := by
  unfold verify OpenSsl.verify
  by_cases h1 : o.keyParses = false
  · simp [h1, refuse]
  · simp only [h1, if_false]
    cases o.bioRead s with
    | none => rfl
    | some b =>
      dsimp only
      by_cases h2 : signatureBuffer ≤ b.length
      · simp [h2]
      · by_cases h3 : o.contextCreated = false
        · simp [h2, h3, refuse]
        · by_cases h4 : o.digestInit = false
          · simp [h2, h3, h4, refuse]
          · by_cases h5 : o.digestUpdate d = 1
            · by_cases h6 : o.digestFinal d b = 1 <;> simp [h2, h3, h4, h5, h6, refuse]
            · simp [h2, h3, h4, h5, refuse]

/-- **C83**: the theorems about `acquire_license` and `identify_pc` apply to the library on Linux. -/
theorem C83_linux (l : Linux) (lib : Exn → Bytes) : Faithful (linuxHooks l lib) where
  verify d s := verify_result _ d s
  adapters := by
    show (getAdapterInfos l.os.machine l.net).result = l.os.machine.adapters
    unfold getAdapterInfos
    cases hi : l.net.ifaddrs with
    | none =>
      cases ho : l.logOverruns <;> simp [Os.machine, Linux.os, hi, ho, Machine.logged]
    | some es => simp [Os.machine, Linux.os, hi]

/-- **C83**: the check of a signature logs exactly one error if the signature is refused, which names the first step that failed and its
    result; and nothing if it is accepted. -/
theorem C83_signature {o : OpenSsl} {data sig : Bytes} {b : Bool} (hr : (verify o data sig).result = .ok b) :
    SignatureLogged o data sig (verify o data sig).entries b := by
  have key : ∀ e : Entry, (refuse o e).result = .ok b → (refuse o e).entries = [e] ∧ b = false := by
    intro e h
    unfold refuse OpenSsl.fail at h
    unfold refuse
    cases hl : o.logOverruns with
    | true => simp [hl] at h
    | false => simp [hl] at h; simp [h]
  unfold verify at hr ⊢
  by_cases h1 : o.keyParses = false
  · rw [if_pos h1] at hr ⊢
    obtain ⟨he, rfl⟩ := key _ hr
    rw [he]; exact .key h1
  · have k1 : o.keyParses = true := by simpa using h1
    rw [if_neg h1] at hr ⊢
    cases hb : o.bioRead sig with
    | none => rw [hb] at hr; simp at hr
    | some d =>
      rw [hb] at hr
      dsimp only at hr ⊢
      by_cases h2 : signatureBuffer ≤ d.length
      · rw [if_pos h2] at hr; simp at hr
      · rw [if_neg h2] at hr ⊢
        by_cases h3 : o.contextCreated = false
        · rw [if_pos h3] at hr ⊢
          obtain ⟨he, rfl⟩ := key _ hr
          rw [he]; exact .context k1 hb h3
        · have k3 : o.contextCreated = true := by simpa using h3
          rw [if_neg h3] at hr ⊢
          by_cases h4 : o.digestInit = false
          · rw [if_pos h4] at hr ⊢
            obtain ⟨he, rfl⟩ := key _ hr
            rw [he]; exact .init k1 hb k3 h4
          · have k4 : o.digestInit = true := by simpa using h4
            rw [if_neg h4] at hr ⊢
            by_cases h5 : o.digestUpdate data ≠ 1
            · rw [if_pos h5] at hr ⊢
              obtain ⟨he, rfl⟩ := key _ hr
              rw [he]; exact .update k1 hb k3 k4 h5
            · have k5 : o.digestUpdate data = 1 := by simpa using h5
              rw [if_neg h5] at hr ⊢
              by_cases h6 : o.digestFinal data d = 1
              · rw [if_pos h6] at hr ⊢
                simp only [pure_result, Outcome.ok.injEq] at hr
                subst hr
                exact .accepted k1 hb k3 k4 k5 h6
              · rw [if_neg h6] at hr ⊢
                obtain ⟨he, rfl⟩ := key _ hr
                rw [he]; exact .final k1 hb k3 k4 k5 h6

/-- **C83**: listing the adapters logs a warning exactly if the system does not list them. -/
theorem C83_adapters {m : Machine} {n : NetHost} {x : FuncRet × List Adapter} (hr : (getAdapterInfos m n).result = .ok x) :
    (n.ifaddrs = none ∧ (getAdapterInfos m n).entries = [.getifaddrs]) ∨ (n.ifaddrs ≠ none ∧ (getAdapterInfos m n).entries = []) := by
  unfold getAdapterInfos at hr ⊢
  cases hi : n.ifaddrs with
  | some es => right; simp
  | none =>
    left
    rw [hi] at hr
    dsimp only at hr ⊢
    refine ⟨rfl, ?_⟩
    rw [bind_result] at hr
    obtain ⟨u, h1, _⟩ := Outcome.bind_eq_ok.mp hr
    rw [bind_entries_ok h1, log_ok h1]
    simp

/-! ## Accepted licences -/

/-- A platform that logs nothing about signatures that it accepts, nor about adapters that it lists. -/
structure LogsFailures (h : Hooks) : Prop where
  verify : ∀ d s, (h.verify d s).result = .ok true → (h.verify d s).entries = []
  adapters : ∀ l, h.adapters.result = .ok (.ok, l) → h.adapters.entries = []

theorem validate_silent {h : Hooks} (hf : Faithful h) (hq : LogsFailures h) {s : Bytes} {ev : EventType}
    (hr : (validatePcSignature h s).result = .ok ev) (hok : ev = .licenseOk) :
    (validatePcSignature h s).entries = [] := by
  unfold validatePcSignature at hr ⊢
  rw [catching_result] at hr
  unfold catching
  generalize hu : (do
      let id ← ofString h.lib s
      let s ← getStrategy id.strategy
      validateIdentifier h s id : Tells EventType) = u at hr ⊢
  cases hres : u.result with
  | ub => rw [hres] at hr; simp at hr
  | throw e =>
    rw [hres] at hr
    dsimp only at hr
    split at hr
    · rw [bind_result] at hr
      obtain ⟨_, _, h2⟩ := Outcome.bind_eq_ok.mp hr
      simp only [pure_result, Outcome.ok.injEq] at h2
      rw [← h2] at hok; simp at hok
    · simp at hr
  | ok a =>
    rw [hres] at hr
    dsimp only at hr ⊢
    simp only [Outcome.ok.injEq] at hr
    subst hr
    rw [← hu] at hres ⊢
    rw [bind_result] at hres
    obtain ⟨id, h1, h2⟩ := Outcome.bind_eq_ok.mp hres
    rw [bind_entries_ok h1]
    rw [bind_result] at h2
    obtain ⟨st, h3, h4⟩ := Outcome.bind_eq_ok.mp h2
    rw [bind_entries_ok h3]
    have e1 : (ofString h.lib s).entries = [] := by
      unfold ofString
      cases hub : unbase64 (HwId.replaceByte 45 10 s) with
      | throw e => rw [bind_throw (quiet_result _ _)]; rfl
      | ub => rw [bind_ub (quiet_result _ _)]; rfl
      | ok d => rw [quiet_ok_bind]; split <;> rfl
    rw [e1]
    show (validateIdentifier _ st id).entries = []
    unfold validateIdentifier at h4 ⊢
    by_cases hd : st = .default
    · rw [if_pos hd]; rfl
    · rw [if_neg hd] at h4 ⊢
      by_cases hc : id.strategy = st.code
      · rw [if_pos hc] at h4 ⊢
        rw [bind_result] at h4
        obtain ⟨ids, h5, h6⟩ := Outcome.bind_eq_ok.mp h4
        rw [bind_entries_ok h5]
        simp only [pure_result, Outcome.ok.injEq, pure_entries, List.append_nil] at h6 ⊢
        have hne : ids ≠ [] := by
          rintro rfl
          simp at h6
          rw [← h6] at hok; simp at hok
        rcases alternativeIds_cases h st with ⟨h7, _⟩ | ⟨_, h7⟩ | ⟨_, h7⟩
        · exact absurd h7 hd
        · rcases h7 with ⟨x, l', h8, h9⟩ | ⟨ex, h8, h9⟩ | ⟨h8, h9⟩
          · rw [h9]
            show h.adapters.entries = []
            by_cases hx : x.1 = .ok
            · exact hq.adapters x.2 (by rw [h8, ← hx])
            · exfalso
              apply hne
              have h11 := alternativeIds_result hf st
              rw [h5] at h11
              have hm : h.world.machine.adapters = .ok x := by rw [← hf.adapters, h8]
              obtain ⟨x1, x2⟩ := x
              rename_i hnet
              cases st with
              | default => exact absurd rfl hd
              | disk => simp at hnet
              | ethernet =>
                simp [Licensecc.alternativeIds, Licensecc.generateEthernetIds, hm, hx] at h11; exact h11
              | ip =>
                simp [Licensecc.alternativeIds, Licensecc.generateEthernetIds, hm, hx] at h11; exact h11
          · rw [h9] at h5; simp at h5
          · rw [h9] at h5; simp at h5
        · rcases h7 with ⟨x, l', h8, h9⟩ | ⟨ex, h8, h9⟩ | ⟨h8, h9⟩
          · rw [h9]
          · rw [h9] at h5; simp at h5
          · rw [h9] at h5; simp at h5
      · rw [if_neg hc]; rfl

theorem verifyLimits_silent {cfg : Config} {h : Hooks} (hf : Faithful h) (hq : LogsFailures h) {lic : FullLicense} {r : Registry} {k : Nat}
    {x : Registry × Nat × Bool} (hx : (verifyLimits cfg h lic r k).result = .ok x) (hv : x.2.2 = true) :
    (verifyLimits cfg h lic r k).entries = [] := by
  rcases verifyLimits_entries cfg h lic r k with h0 | ⟨s, hs, h0⟩
  · exact h0
  · obtain ⟨h1, ev, h2, h3⟩ := verifyLimits_reaches hx hs
    rw [h1]
    exact validate_silent hf hq h2 (h3 hv)

theorem accepted_silent {cfg : Config} {h : Hooks} (hfa : Faithful h) (hq : LogsFailures h) {caller : Option Caller} {hint : Option LicenseLocation}
    {out : Option LicInfo} {res : AcquireResult} (hx : (acquire cfg h caller hint out).result = .ok res)
    (hok : res.ret = .licenseOk) (hone : (located cfg h.world hint).length = 1) :
    (acquire cfg h caller hint out).entries
      = if cfg.nearModule = true ∧ h.world.moduleName = none then [.moduleName] else [] := by
  have h0 := hx
  rw [C83_same hfa] at h0
  obtain ⟨f, r, lics, es, hf, hr, hes, hc, _⟩ := acquire_cases h0
  obtain ⟨hl, _⟩ := licencesOf_located hes
  have hfo : featureOf cfg caller = .ok f := (featureOf_iff).mpr hf
  have hr' : (readLicenses cfg h.world hint f).result = .ok (r, lics) := by rw [readLicenses_result, hr]
  unfold acquire at hx ⊢
  rw [hfo] at hx ⊢
  rw [quiet_ok_bind] at hx ⊢
  rw [bind_entries_ok hr', readLicenses_entries hr']
  simp only [bind_result, hr', Outcome.ok_bind] at hx
  simp only
  show (if cfg.nearModule = true ∧ h.world.moduleName = none then [Entry.moduleName] else []) ++ _ = _
  conv => rhs; rw [← List.append_nil (if cfg.nearModule = true ∧ h.world.moduleName = none then [Entry.moduleName] else [])]
  congr 1
  unfold judge at hx ⊢
  rcases hc with ⟨rfl, _⟩ | ⟨hne, vs, es', oks, errs, r1, _, hj, hc⟩
  · rfl
  · have hj' : (judgeLoop cfg h caller r 0 lics).result = .ok (r1, res.ticks, oks, errs) := by
      rw [judgeLoop_result hfa, hj]
    have hoks : oks ≠ [] := by
      rcases hc with ⟨_, h, _⟩ | ⟨_, _, href, _⟩
      · exact h
      · have := (refused_failure href).1
        rw [hok] at this; simp [IsFailure, stage] at this
    have hsingle : ∃ lic, lics = [lic] := by
      have hps : ∃ p, located cfg h.world hint = [p] := List.length_eq_one_iff.mp hone
      obtain ⟨p, hp⟩ := hps
      rw [hp] at hl
      cases hl with
      | skip _ h => cases h; exact absurd rfl hne
      | take _ h => cases h; exact ⟨_, rfl⟩
    obtain ⟨lic, rfl⟩ := hsingle
    simp only
    rw [bind_entries_ok hj']
    have hend : (judgeLoop cfg h caller r 0 [lic]).entries = [] := by
      simp only [judgeLoop] at hj' ⊢
      rw [bind_result] at hj'
      obtain ⟨⟨r2, good⟩, h1, h2⟩ := Outcome.bind_eq_ok.mp hj'
      rw [bind_entries_ok h1, verifySignature_entries]
      have hv : (h.verify lic.printForSign lic.signature).result = .ok good := by
        rw [hfa.verify]
        exact verifySignature_ok (by rw [verifySignature_result hfa] at h1; exact h1)
      simp only [bind_result, quiet_result] at h2
      obtain ⟨⟨i, k1⟩, h3, h4⟩ := Outcome.bind_eq_ok.mp h2
      simp only [h3, quiet_ok_bind]
      cases good with
      | false =>
        simp [pure_result] at h4
        exact absurd h4.2.2.1 hoks
      | true =>
        have e1 : (h.verify (withMagic caller lic).printForSign (withMagic caller lic).signature).entries = [] := by
          exact hq.verify _ _ hv
        rw [e1]
        simp only [if_true, bind_result] at h4 ⊢
        obtain ⟨⟨r3, k3, v⟩, h5, h6⟩ := Outcome.bind_eq_ok.mp h4
        rw [bind_entries_ok h5]
        simp only [pure_bind', pure_result, Outcome.ok_bind, pure_entries, List.append_nil, List.nil_append] at h6 ⊢
        have hv : v = true := by
          cases v with
          | true => rfl
          | false => simp at h6; exact absurd h6.2.2.1 hoks
        exact verifyLimits_silent hfa hq h5 hv
    rw [hend]
    cases oks <;> simp

theorem linux_logsFailures (l : Linux) (lib : Exn → Bytes) : LogsFailures (linuxHooks l lib) where
  verify d s hv := by
    have key : ∀ es, SignatureLogged { l.ssl with logOverruns := l.logOverruns } d s es true → es = [] := by
      intro es h; cases h; rfl
    exact key _ (C83_signature hv)
  adapters as ha := by
    rcases C83_adapters (m := l.world.machine) (n := l.net) ha with ⟨h10, _⟩ | ⟨_, h10⟩
    · exfalso
      have : (getAdapterInfos l.world.machine l.net).result = .ok (.ok, as) := ha
      unfold getAdapterInfos at this
      rw [h10] at this
      dsimp only at this
      rw [bind_result] at this
      obtain ⟨_, _, h12⟩ := Outcome.bind_eq_ok.mp this
      simp [Licensecc.getAdapterInfos, getAdapterInfosNamed, h10] at h12
    · exact h10

/-- **C83**: on Linux, if a licence is accepted and its text is the only one that is located, nothing is logged but that the name of the
    executable could not be determined. -/
theorem C83_accepted {cfg : Config} {l : Linux} {lib : Exn → Bytes} {caller : Option Caller} {hint : Option LicenseLocation}
    {out : Option LicInfo} {res : AcquireResult} (hx : (acquire cfg (linuxHooks l lib) caller hint out).result = .ok res)
    (hok : res.ret = .licenseOk) (hone : (located cfg l.world hint).length = 1) :
    (acquire cfg (linuxHooks l lib) caller hint out).entries
      = if cfg.nearModule = true ∧ l.world.moduleName = none then [.moduleName] else [] :=
  accepted_silent (C83_linux l lib) (linux_logsFailures l lib) hx hok hone

/-! ## The file -/

theorem printf_plain {pre f : Bytes} (hp : 37 ∉ pre) (as : List Arg) :
    printf (pre ++ f) as = (do return pre ++ (← printf f as)) := by
  induction pre with
  | nil =>
    rw [List.nil_append]
    cases printf f as <;> rfl
  | cons c pre ih =>
    have hc : c ≠ 37 := fun h => hp (by simp [h])
    have hp' : 37 ∉ pre := fun h => hp (by simp [h])
    rw [List.cons_append, printf, if_neg hc, ih hp']
    · cases printf f as <;> simp
    all_goals (intros; contradiction)

theorem printf_nil (as : List Arg) : printf [] as = .ok [] := by cases as <;> simp [printf]

theorem printf_str {f : Bytes} {s : Bytes} {as : List Arg} {t : Bytes} (h : printf f as = .ok t) :
    printf (37 :: 115 :: f) (.str s :: as) = .ok (s.takeWhile (· ≠ 0) ++ t) := by
  rw [printf, h]; rfl

theorem printf_int {f : Bytes} {n : Int} {as : List Arg} {t : Bytes} (h : printf f as = .ok t) :
    printf (37 :: 100 :: f) (.int n :: as) = .ok (decimal n ++ t) := by
  rw [printf, h]; rfl

theorem printf_pre {pre f : Bytes} {as : List Arg} {t : Bytes} (hp : 37 ∉ pre) (h : printf f as = .ok t) :
    printf (pre ++ f) as = .ok (pre ++ t) := by
  rw [printf_plain hp, h]; rfl

theorem printf_text {f : Bytes} (hp : 37 ∉ f) (as : List Arg) : printf f as = .ok f := by
  have := printf_pre (f := []) (as := as) hp (printf_nil as)
  simpa using this

theorem own_printed (e : Entry) : ∃ level file line msg, Described e level file line msg ∧ e.place = (file, line.toNat) ∧ 0 ≤ line
    ∧ (if e.isWarning then b!"[WARN] (" else b!"[ERROR] (") = b!"[" ++ level ++ b!"] ("
    ∧ printf (e.own ++ b!"\n") e.ownArgs = .ok (msg ++ b!"\n") := by
  have fin : ∀ as, printf (b!"\n") as = .ok (b!"\n") := fun as => printf_text (by decide) as
  have plain : ∀ t : Bytes, 37 ∉ t → printf (t ++ b!"\n") [] = .ok (t ++ b!"\n") := fun t ht =>
    printf_pre ht (fin [])
  cases e with
  | identifying w =>
    refine ⟨_, _, _, _, .identifying w, rfl, by decide, rfl, ?_⟩
    have := printf_pre (pre := b!"Error calculating hw_identifier: ") (by decide) (printf_str (s := w) (fin []))
    rw [List.append_assoc]; exact this
  | validating c w =>
    refine ⟨_, _, _, _, .validating c w, rfl, by decide, rfl, ?_⟩
    have := printf_pre (pre := b!"Error validating identifier ") (by decide) (printf_str (s := c)
      (printf_pre (pre := b!": ") (by decide) (printf_str (s := w) (fin []))))
    simp only [List.append_assoc]; exact this
  | unknownStrategy v =>
    refine ⟨_, _, _, _, .unknownStrategy v, rfl, by decide, rfl, ?_⟩
    have := printf_pre (pre := b!"unknown IDENTIFICATION_STRATEGY ") (by decide) (printf_str (s := v) (fin []))
    rw [List.append_assoc]; exact this
  | moduleName => exact ⟨_, _, _, _, .moduleName, rfl, by decide, rfl, plain _ (by decide)⟩
  | getifaddrs => exact ⟨_, _, _, _, .getifaddrs, rfl, by decide, rfl, plain _ (by decide)⟩
  | publicKey => exact ⟨_, _, _, _, .publicKey, rfl, by decide, rfl, plain _ (by decide)⟩
  | context => exact ⟨_, _, _, _, .context, rfl, by decide, rfl, plain _ (by decide)⟩
  | digestInit => exact ⟨_, _, _, _, .digestInit, rfl, by decide, rfl, plain _ (by decide)⟩
  | digestUpdate n =>
    refine ⟨_, _, _, _, .digestUpdate (decimal_text n), rfl, by decide, rfl, ?_⟩
    have := printf_pre (pre := b!"Error verifying digest ") (by decide) (printf_int (n := n) (fin []))
    rw [List.append_assoc]; exact this
  | digestFinal n =>
    refine ⟨_, _, _, _, .digestFinal (decimal_text n), rfl, by decide, rfl, ?_⟩
    have := printf_pre (pre := b!"Error verifying digest ") (by decide) (printf_int (n := n) (fin []))
    rw [List.append_assoc]; exact this

theorem entry_printed (dir : Bytes) (x : Stamp) (e : Entry) (hn : 37 ∉ x.now) :
    ∃ t, printf (x.now ++ e.format) (e.args dir x) = .ok t ∧ LogLine dir x e t := by
  obtain ⟨level, file, line, msg, hd, hp, h0, hl, hm⟩ := own_printed e
  refine ⟨_, ?_, .mk hd (decimal_text line)⟩
  have hfmt : e.format = (b!"[" ++ level ++ b!"] (") ++ (37 :: 115 :: (b!":" ++ (37 :: 100 :: (b!": errno: " ++ (37 :: 115 ::
      (b!") " ++ (e.own ++ b!"\n")))))))  := by
    rw [← hl]
    unfold Entry.format
    cases e.isWarning <;> simp
  have hlev : 37 ∉ (b!"[" ++ level ++ b!"] (" : Bytes) := by
    rw [← hl]; cases e.isWarning <;> decide
  have hargs : e.args dir x = .str (dir ++ file) :: .int line :: .str x.errno :: e.ownArgs := by
    unfold Entry.args
    rw [hp]
    have : ((line.toNat : Nat) : Int) = line := by omega
    simp only [this, List.cons_append, List.nil_append]
  rw [hfmt, hargs, printf_pre hn (printf_pre hlev (printf_str (printf_pre (pre := b!":") (by decide) (printf_int
    (printf_pre (pre := b!": errno: ") (by decide) (printf_str (printf_pre (pre := b!") ") (by decide) hm)))))))]
  simp only [List.append_assoc, upToNul]

/-- **C83**: what the entries leave in the log file: if it is open, or can be opened where TMPDIR says, exactly the texts of the entries, in
    order; no text from outside acts as a directive.  Nothing else is written. -/
theorem C83_file (dir : Bytes) (tmpdir : Option Bytes) (p : Bytes) (es : List (Stamp × Entry)) : ∀ (s : Logger.State),
    (∀ x ∈ es, x.1.now.length ≤ 63 ∧ 37 ∉ x.1.now) →
    (s.logFile = some p ∨ s.logFile = none ∧ (∀ d, tmpdir = some d → d.length < 238)
      ∧ p = tmpdir.getD (b!"/tmp") ++ b!"/open-license.log" ∧ ∀ x ∈ es, x.1.canOpen p = true) →
    ∃ s' text, LogLines dir es text ∧ Logger.run s (es.map fun x => x.2.op dir tmpdir x.1) = .ok s'
      ∧ s'.files p = s.files p ++ text ∧ ∀ q, q ≠ p → s'.files q = s.files q := by
  induction es with
  | nil => intro s _ _; exact ⟨s, [], .nil, rfl, by simp, fun _ _ => rfl⟩
  | cons x es ih =>
    intro s ht hs
    obtain ⟨x, e⟩ := x
    obtain ⟨h1, h2⟩ := ht _ (List.mem_cons_self ..)
    have ht' : ∀ x ∈ es, x.1.now.length ≤ 63 ∧ 37 ∉ x.1.now := fun x hx => ht x (List.mem_cons_of_mem _ hx)
    obtain ⟨t, h3, h4⟩ := entry_printed dir x e h2
    have hlog : ∃ s1, Logger.run s (((x, e) :: es).map fun x => x.2.op dir tmpdir x.1)
          = Logger.run s1 (es.map fun x => x.2.op dir tmpdir x.1) ∧ s1.logFile = some p ∧ s1.files p = s.files p ++ t
          ∧ ∀ q, q ≠ p → s1.files q = s.files q := by
      have hw : ∀ s0 : Logger.State, Logger.write (e.env dir tmpdir x) e.format s0 p = .ok (s0.append p t) := by
        intro s0
        unfold Logger.write
        have h1 : x.now.length ≤ 63 := h1
        have e1 : (e.env dir tmpdir x).now = x.now := rfl
        rw [if_pos (by rw [e1]; omega)]
        simp only [Entry.env, h3]
      simp only [List.map_cons]
      generalize hops : (es.map fun x => x.2.op dir tmpdir x.1) = ops
      unfold Entry.op
      simp only [Logger.run, Logger.log]
      rcases hs with hs | ⟨hs, htmp, hp, hopen⟩
      · rw [hs]
        dsimp only
        rw [hw]
        refine ⟨s.append p t, rfl, hs, by simp [Logger.State.append], fun q hq => by simp [Logger.State.append, hq]⟩
      · rw [hs]
        have hpath : Logger.getLogFname tmpdir = .ok p := by
          rw [hp]
          obtain ⟨_, g2, g3⟩ := Logger.C59_log_path tmpdir
          cases tmpdir with
          | none => exact g3 rfl
          | some d => exact g2 d rfl (htmp d rfl)
        have ho : x.canOpen p = true := hopen _ (List.mem_cons_self ..)
        have e1 : (e.env dir tmpdir x).tmpdir = tmpdir := rfl
        have e2 : (e.env dir tmpdir x).canOpen = x.canOpen := rfl
        simp only [e1, e2, hpath, Outcome.ok_bind, ho, if_true]
        rw [hw]
        refine ⟨{ s with logFile := some p }.append p t, rfl, rfl, by simp [Logger.State.append],
          fun q hq => by simp [Logger.State.append, hq]⟩
    obtain ⟨s1, g1, g2, g3, g4⟩ := hlog
    obtain ⟨s', text, k1, k2, k3, k4⟩ := ih s1 ht' (.inl g2)
    refine ⟨s', t ++ text, .cons h4 k1, by rw [g1, k2], by rw [k3, g3, List.append_assoc], fun q hq => by rw [k4 q hq, g4 q hq]⟩

/-- **C83**: nothing is written if the log file cannot be opened. -/
theorem C83_file_closed (dir : Bytes) (tmpdir : Option Bytes) (es : List (Stamp × Entry)) (s : Logger.State) (hs : s.logFile = none)
    (hd : ∀ d, tmpdir = some d → d.length < 238)
    (ho : ∀ x ∈ es, x.1.canOpen (tmpdir.getD (b!"/tmp") ++ b!"/open-license.log") = false) :
    Logger.run s (es.map fun x => x.2.op dir tmpdir x.1) = .ok s := by
  have hpath : Logger.getLogFname tmpdir = .ok (tmpdir.getD (b!"/tmp") ++ b!"/open-license.log") := by
    obtain ⟨_, g2, g3⟩ := Logger.C59_log_path tmpdir
    cases tmpdir with
    | none => exact g3 rfl
    | some d => exact g2 d rfl (hd d rfl)
  induction es with
  | nil => rfl
  | cons x es ih =>
    have h1 := ho _ (List.mem_cons_self ..)
    simp only [List.map_cons, Entry.op, Entry.env, Logger.run, Logger.log, hs, hpath, Outcome.ok_bind, h1, Bool.false_eq_true, if_false]
    exact ih fun x hx => ho x (List.mem_cons_of_mem _ hx)

theorem numeral_no_newline {n : Nat} {t : Bytes} (h : Numeral 10 n t) : t.count 10 = 0 := by
  rw [List.count_eq_zero]
  intro hm
  have := h.2.1 _ hm
  revert this
  simp [IsDigit, digitValue]

theorem intText_no_newline {n : Int} {t : Bytes} (h : IntText n t) : t.count 10 = 0 := by
  rcases h with ⟨_, h, _⟩ | ⟨_, u, rfl, h, _⟩
  · exact numeral_no_newline h
  · rw [List.count_cons, numeral_no_newline h]; rfl

/-- **C83**: one entry is one line only if the texts from outside contain no line end: each one in them is one more in the file. -/
theorem C83_lines {dir : Bytes} {x : Stamp} {e : Entry} {t : Bytes} (h : LogLine dir x e t) (h1 : 10 ∉ x.now) (h2 : 10 ∉ dir)
    (h3 : 10 ∉ x.errno) : t.count 10 = 1 + ((outsideTexts e).map fun v => (upToNul v).count 10).sum := by
  have sub : ∀ s : Bytes, 10 ∉ s → (upToNul s).count 10 = 0 := fun s hs =>
    List.count_eq_zero.mpr fun hm => hs ((List.takeWhile_sublist _).subset hm)
  cases h with
  | @mk level file num msg line hd hn =>
    have e1 : x.now.count 10 = 0 := List.count_eq_zero.mpr h1
    have e2 := sub _ h3
    have e3 := intText_no_newline hn
    have e4 : level.count 10 = 0 ∧ (upToNul (dir ++ file)).count 10 = 0
        ∧ msg.count 10 = ((outsideTexts e).map fun v => (upToNul v).count 10).sum := by
      have hdir : ∀ f : Bytes, 10 ∉ f → (upToNul (dir ++ f)).count 10 = 0 := fun f hf =>
        sub _ (by rw [List.mem_append]; exact fun h => h.elim h2 hf)
      cases hd with
      | identifying w => exact ⟨rfl, hdir _ (by decide), by rw [List.count_append]; simp [outsideTexts]⟩
      | validating c w =>
        exact ⟨rfl, hdir _ (by decide), by simp only [List.count_append, outsideTexts]; simp⟩
      | unknownStrategy v => exact ⟨rfl, hdir _ (by decide), by rw [List.count_append]; simp [outsideTexts]⟩
      | digestUpdate hi =>
        exact ⟨rfl, hdir _ (by decide), by rw [List.count_append, intText_no_newline hi]; simp [outsideTexts]⟩
      | digestFinal hi =>
        exact ⟨rfl, hdir _ (by decide), by rw [List.count_append, intText_no_newline hi]; simp [outsideTexts]⟩
      | _ => exact ⟨rfl, hdir _ (by decide), rfl⟩
    obtain ⟨e4, e5, e6⟩ := e4
    simp only [List.count_append, e1, e2, e3, e4, e5, e6]
    have c1 : (b!"[" : Bytes).count 10 = 0 := rfl
    have c2 : (b!"] (" : Bytes).count 10 = 0 := rfl
    have c3 : (b!":" : Bytes).count 10 = 0 := rfl
    have c4 : (b!": errno: " : Bytes).count 10 = 0 := rfl
    have c5 : (b!") " : Bytes).count 10 = 0 := rfl
    have c6 : (b!"\n" : Bytes).count 10 = 1 := rfl
    rw [c1, c2, c3, c4, c5, c6]
    omega

/-! ## Who can write further lines -/

theorem trimRight_subset {c : UInt8} {v : Bytes} (h : c ∈ Ini.trimRight v) : c ∈ v := by
  unfold Ini.trimRight at h
  rw [List.mem_reverse] at h
  exact List.mem_reverse.mp ((List.dropWhile_sublist _).subset h)

theorem takeWhile_pred {q : UInt8 → Bool} {c : UInt8} : ∀ {v : Bytes}, c ∈ v.takeWhile q → q c = true
  | [], h => by simp at h
  | d :: v, h => by
    rw [List.takeWhile_cons] at h
    split at h
    · rcases List.mem_cons.mp h with rfl | h
      · assumption
      · exact takeWhile_pred h
    · simp at h

theorem step_value {t k v r : Bytes} (h : Ini.step t = .entry k v r) : 10 ∉ v := by
  unfold Ini.step at h
  split at h
  · simp at h
  · split at h
    · simp at h
    · split at h
      · dsimp only at h
        split at h <;> simp at h
      · dsimp only at h
        split at h
        · split at h
          · simp at h
          · simp only [Ini.Step.entry.injEq] at h
            obtain ⟨_, rfl, _⟩ := h
            intro hm
            have := takeWhile_pred (trimRight_subset hm)
            simp [Ini.isNL] at this
        · simp at h

theorem items_value {k v : Bytes} : ∀ (n : Nat) (t : Bytes), Ini.Item.entry k v ∈ Ini.itemsAux n t → 10 ∉ v := by
  intro n
  induction n with
  | zero => intro t h; simp [Ini.itemsAux] at h
  | succ n ih =>
    intro t h
    rw [Ini.itemsAux] at h
    split at h
    · simp at h
    · exact ih _ h
    · rcases List.mem_cons.mp h with h | h
      · simp at h
      · exact ih _ h
    · rcases List.mem_cons.mp h with h | h
      · simp at h
      · exact ih _ h
    · rename_i hs
      rcases List.mem_cons.mp h with h | h
      · simp only [Ini.Item.entry.injEq] at h
        obtain ⟨rfl, rfl⟩ := h
        exact step_value hs
      · exact ih _ h

theorem entriesFrom_mem {p : Bytes} {e : Bytes × Bytes} : ∀ (is : List Ini.Item) (b : Bool), e ∈ entriesFrom p b is →
    Ini.Item.entry e.1 e.2 ∈ is := by
  intro is
  induction is with
  | nil => intro b h; simp [entriesFrom] at h
  | cons i is ih =>
    intro b h
    cases i with
    | header n => rw [entriesFrom] at h; exact List.mem_cons_of_mem _ (ih _ h)
    | badHeader => rw [entriesFrom] at h; exact List.mem_cons_of_mem _ (ih _ h)
    | entry k v =>
      cases b <;> simp only [entriesFrom] at h
      · exact List.mem_cons_of_mem _ (ih _ h)
      · rcases List.mem_cons.mp h with rfl | h
        · exact List.mem_cons_self ..
        · exact List.mem_cons_of_mem _ (ih _ h)

theorem limit_no_newline {f text k v : Bytes} (h : IsLimit (entriesFor f text) k v) : 10 ∉ v := by
  have h := h.2
  unfold lastValue at h
  rw [Option.map_eq_some_iff] at h
  obtain ⟨e, he, rfl⟩ := h
  have hm := List.mem_of_getLast? he
  rw [List.mem_filter] at hm
  have := entriesFrom_mem _ _ hm.1
  exact items_value _ _ this

/-- A platform that logs no text from outside when it checks signatures and lists adapters, and does not throw when it lists adapters. -/
structure LogsOwnTexts (h : Hooks) : Prop where
  verify : ∀ d s, ∀ e ∈ (h.verify d s).entries, outsideTexts e = []
  adapters : ∀ e ∈ h.adapters.entries, outsideTexts e = []
  never : ∀ ex, h.adapters.result ≠ .throw ex

theorem one_line {cfg : Config} {h : Hooks} (hfa : Faithful h) (hn : LogsOwnTexts h) {caller : Option Caller} {hint : Option LicenseLocation}
    {out : Option LicInfo} {res : AcquireResult} {f : Bytes} (hf : FeatureIs cfg caller f)
    (hx : (acquire cfg h caller hint out).result = .ok res)
    (hbig : ∀ p ∈ located cfg h.world hint, ∀ k ≤ res.ticks, ∀ s, LooksAt cfg h.world (magicOf caller) f p.2 (h.world.clock k) s →
      (identifierText s).length < 2 ^ 63)
    (hlib : ∀ e, 10 ∉ h.lib e) {dir : Bytes} {x : Stamp} {e : Entry} {t : Bytes}
    (he : e ∈ (acquire cfg h caller hint out).entries) (ht : LogLine dir x e t)
    (h1 : 10 ∉ x.now) (h2 : 10 ∉ dir) (h3 : 10 ∉ x.errno) : t.count 10 = 1 := by
  obtain ⟨es, g1, g2⟩ := C83_acquire hfa hf hx hbig
  have sub : ∀ s : Bytes, 10 ∉ s → (upToNul s).count 10 = 0 := fun s hs =>
    List.count_eq_zero.mpr fun hm => hs ((List.takeWhile_sublist _).subset hm)
  have clean : ∀ v ∈ outsideTexts e, 10 ∉ v := by
    have hident : ∀ s es, 10 ∉ s → IdentifierLogged h s es → ∀ e ∈ es, ∀ v ∈ outsideTexts e, 10 ∉ v := by
      intro s es hs hd e he v hv
      have two : ∀ w : Bytes, 10 ∉ w → v ∈ outsideTexts (Entry.validating s w) → 10 ∉ v := by
        intro w hw hv
        simp only [outsideTexts, List.mem_cons, List.not_mem_nil, or_false] at hv
        rcases hv with rfl | rfl
        · exact hs
        · exact hw
      cases hd with
      | equals => rw [List.mem_singleton] at he; subst he; exact two _ (hlib _) hv
      | size =>
        rw [List.mem_singleton] at he; subst he
        exact two _ (by rw [List.mem_append]; exact fun h => h.elim (by decide) hs) hv
      | unsupported => rw [List.mem_singleton] at he; subst he; exact two _ (by decide) hv
      | network => rw [hn.adapters e he] at hv; simp at hv
      | @networkThrows _ ex _ _ h6 =>
        exfalso
        exact hn.never ex h6
      | disks => simp at he
      | disksThrow => rw [List.mem_singleton] at he; subst he; exact two _ (hlib _) hv
    have htexts : ∀ ps es, TextsLogged cfg h (magicOf caller) f res.ticks ps es →
        ∀ e ∈ es, ∀ v ∈ outsideTexts e, 10 ∉ v := by
      intro ps es h
      induction h with
      | nil => intro e he; simp at he
      | cons _ h _ ih =>
        intro e he v hv
        rcases List.mem_append.mp he with he | he
        · cases h with
          | none => simp at he
          | signature => rw [hn.verify _ _ e he] at hv; simp at hv
          | @identifier _ _ s _ _ _ hlook hid =>
            rcases List.mem_append.mp he with he | he
            · rw [hn.verify _ _ e he] at hv; simp at hv
            · exact hident s _ (limit_no_newline hlook.identifier) hid e he v hv
        · exact ih e he v hv
    rw [g2] at he
    rcases List.mem_append.mp he with he | he
    · split at he
      · rw [List.mem_singleton] at he; subst he; intro v hv; simp [outsideTexts] at hv
      · simp at he
    · exact htexts _ _ g1 e he
  rw [C83_lines ht h1 h2 h3]
  have : ∀ vs : List Bytes, (∀ v ∈ vs, 10 ∉ v) → (vs.map fun v => (upToNul v).count 10).sum = 0 := by
    intro vs
    induction vs with
    | nil => intro _; rfl
    | cons v vs ih =>
      intro h
      rw [List.map_cons, List.sum_cons, sub v (h v (List.mem_cons_self ..)), ih fun v hv => h v (List.mem_cons_of_mem _ hv)]
  rw [this _ clean]

theorem linux_logsOwnTexts (l : Linux) (lib : Exn → Bytes) : LogsOwnTexts (linuxHooks l lib) where
  verify := by
    show ∀ d s, ∀ e ∈ (verify { l.ssl with logOverruns := l.logOverruns } d s).entries, outsideTexts e = []
    intro d s e he
    have hr : ∀ e', outsideTexts e' = [] → ∀ e ∈ (refuse { l.ssl with logOverruns := l.logOverruns } e').entries, outsideTexts e = [] := by
      intro e' h0 e he
      unfold refuse at he
      dsimp only at he
      split at he
      · simp at he
      · rw [List.mem_singleton] at he; rw [he]; exact h0
    unfold verify at he
    split at he
    · exact hr _ rfl _ he
    · split at he
      · simp at he
      · split at he
        · simp at he
        · split at he
          · exact hr _ rfl _ he
          · split at he
            · exact hr _ rfl _ he
            · split at he
              · exact hr _ rfl _ he
              · split at he
                · simp at he
                · exact hr _ rfl _ he
  adapters := by
    show ∀ e ∈ (getAdapterInfos l.world.machine l.net).entries, outsideTexts e = []
    intro e he
    unfold getAdapterInfos at he
    cases hi : l.net.ifaddrs with
    | some a => rw [hi] at he; simp at he
    | none =>
      rw [hi] at he
      dsimp only at he
      rw [bind_entries_quiet _ _ (fun _ => rfl)] at he
      unfold log at he
      dsimp only at he
      split at he
      · simp at he
      · rw [List.mem_singleton] at he; rw [he]; rfl
  never := by
    intro ex h6
    have h7 : (getAdapterInfos l.world.machine l.net).result = .throw ex := h6
    unfold getAdapterInfos at h7
    cases hi : l.net.ifaddrs with
    | some a => rw [hi] at h7; simp at h7
    | none =>
      rw [hi] at h7
      dsimp only at h7
      rw [bind_result, log_result] at h7
      unfold Machine.logged at h7
      split at h7 <;> simp at h7

/-- **C83**: whatever is in the licences, on Linux an entry logged by `acquire_license` is one line, unless the standard library's own texts
    contain line ends. -/
theorem C83_one_line {cfg : Config} {l : Linux} {lib : Exn → Bytes} {caller : Option Caller} {hint : Option LicenseLocation}
    {out : Option LicInfo} {res : AcquireResult} {f : Bytes} (hf : FeatureIs cfg caller f)
    (hx : (acquire cfg (linuxHooks l lib) caller hint out).result = .ok res)
    (hbig : ∀ p ∈ located cfg l.world hint, ∀ k ≤ res.ticks, ∀ s, LooksAt cfg l.world (magicOf caller) f p.2 (l.clock k) s →
      (identifierText s).length < 2 ^ 63)
    (hlib : ∀ e, 10 ∉ lib e) {dir : Bytes} {x : Stamp} {e : Entry} {t : Bytes}
    (he : e ∈ (acquire cfg (linuxHooks l lib) caller hint out).entries) (ht : LogLine dir x e t)
    (h1 : 10 ∉ x.now) (h2 : 10 ∉ dir) (h3 : 10 ∉ x.errno) : t.count 10 = 1 :=
  one_line (C83_linux l lib) (linux_logsOwnTexts l lib) hf hx hbig hlib he ht h1 h2 h3

/-- **C83**: the environment variable can: a value that names no strategy and contains line ends writes further lines. -/
theorem C83_variable_lines {h : Hooks} (hf : Faithful h) {mem v : Bytes} {size : Nat} {r : IdentifyResult}
    (hr : (identifyPc h (-1) (some mem) size).result = .ok r) (hs : 19 < size) (hv : h.world.machine.strategyVar = some v)
    (hu : VariableUnknown (some v) (-1)) {dir : Bytes} {x : Stamp} (h1 : 10 ∉ x.now) (h2 : 10 ∉ dir) (h3 : 10 ∉ x.errno) :
    Entry.unknownStrategy v ∈ (identifyPc h (-1) (some mem) size).entries
    ∧ ∀ t, LogLine dir x (.unknownStrategy v) t → t.count 10 = 1 + (upToNul v).count 10 := by
  have h0 := C83_identify hf hr
  rw [if_pos ⟨rfl, hs⟩] at h0
  constructor
  · have key : ∀ l0, VariableLogged h.world.machine.strategyVar (-1) l0 → Entry.unknownStrategy v ∈ l0 := by
      intro l0 hl
      rw [hv] at hl
      cases hl with
      | unknown _ h => simp only [Option.some.injEq] at h; subst h; simp
      | otherwise h => exact absurd hu h
    generalize (identifyPc h (-1) (some mem) size).entries = es at h0 ⊢
    generalize r.ret = b at h0
    cases h0 with
    | found _ hl _ => exact List.mem_append_left _ (key _ hl)
    | failed _ hl _ => exact List.mem_append_left _ (List.mem_append_left _ (key _ hl))
  · intro t ht
    rw [C83_lines ht h1 h2 h3]
    simp [outsideTexts]

/-! ## Concrete cases -/

def sampleLib : Exn → Bytes := fun _ => b!"basic_string"

/-- The computer of C66 with every signature accepted, or none. -/
def trustingLinux : Linux := { sampleLinux with ssl := { sampleLinux.ssl with digestFinal := fun _ _ => 1 } }
def distrustingLinux : Linux := { sampleLinux with ssl := { sampleLinux.ssl with digestFinal := fun _ _ => -3 } }

/-- A valid licence: nothing is logged, and the hypotheses of `C83_accepted` are met. -/
example : (acquire sampleConfig (linuxHooks sampleLinux sampleLib) (some sampleCaller) none none).entries = []
    ∧ retOf (acquire sampleConfig (linuxHooks sampleLinux sampleLib) (some sampleCaller) none none).result = some .licenseOk
    ∧ (located sampleConfig sampleLinux.world none).length = 1 := by decide +kernel

/-- The hypotheses of `C83_acquire` are met. -/
example : ∃ l res, (acquire sampleConfig (linuxHooks sampleLinux sampleLib) (some sampleCaller) none none).result = .ok res
    ∧ TextsLogged sampleConfig (linuxHooks sampleLinux sampleLib) 5 (b!"test") res.ticks (located sampleConfig sampleLinux.world none) l
    ∧ (acquire sampleConfig (linuxHooks sampleLinux sampleLib) (some sampleCaller) none none).entries = l := by
  have hret : retOf (acquire sampleConfig (linuxHooks sampleLinux sampleLib) (some sampleCaller) none none).result = some .licenseOk := by
    decide +kernel
  obtain ⟨res, hres, _⟩ := retOf_ok hret
  obtain ⟨l, h1, h2⟩ := C83_acquire (C83_linux sampleLinux sampleLib) (f := b!"test")
    (.named ⟨by decide, .inl ⟨List.replicate 11 0, by decide, by decide⟩⟩ (by decide)) hres (by
      have hl : located sampleConfig (linuxHooks sampleLinux sampleLib).world none = [(b!"/opt/app.lic", boundText)] := by decide +kernel
      intro p hp k _ s hs
      rw [hl, List.mem_singleton] at hp
      subst hp
      let w : World := { sampleLinux.world with verify := fun _ _ => .ok true }
      have hi : Issued w (b!"test") boundLimits boundText := by
        have hf := sample_file
        exact ⟨hf.plainFeature, hf.plainLimits, hf.distinct, _, _, hf.plainSignature, hf.written, hf.signedData, rfl⟩
      have h := (issued_limit hi (by decide) (by decide)).mp hs.identifier
      have : s = b!"AFuy-3QIv-08Q=" := by simpa [boundLimits] using h
      subst this
      decide +kernel)
  refine ⟨l, res, hres, h1, ?_⟩
  have hm : (linuxHooks sampleLinux sampleLib).world.moduleName = some (b!"/opt/app") := by decide +kernel
  rw [h2, if_neg (by rw [hm]; simp)]
  rfl

/-- A wrong signature, a wrong identifier, and an executable that is not known. -/
example : (acquire sampleConfig (linuxHooks distrustingLinux sampleLib) (some sampleCaller) none none).entries = [.digestFinal (-3)]
    ∧ (acquire sampleConfig (linuxHooks { trustingLinux with exe := none } sampleLib) (some sampleCaller)
        (some ⟨1, Output.oddText ++ [0]⟩) none).entries
      = [.moduleName, .validating (b!"QUJD") (b!"wrong identifier size QUJD")] := by decide +kernel

/-- identify_pc with a variable that names no strategy, and without network interfaces. -/
example : (identifyPc (linuxHooks { sampleLinux with getenv := fun _ => some (b!"9") } sampleLib) (-1) (some (List.replicate 20 0)) 20).entries
      = [.unknownStrategy (b!"9")]
    ∧ (identifyPc (linuxHooks { sampleLinux with net := ⟨none, fun x => x⟩ } sampleLib) 0 (some (List.replicate 20 0)) 20).entries
      = [.getifaddrs, .identifying (b!"strategy 0 failed")]
    ∧ (identifyPc (linuxHooks sampleLinux sampleLib) 7 (some (List.replicate 20 0)) 20).entries = [.identifying (b!"strategy not supported")]
    ∧ (identifyPc (linuxHooks sampleLinux sampleLib) 7 (some (List.replicate 20 0)) 19).entries = [] := by decide +kernel

/-- A variable that starts with a number that names no strategy, and goes on. -/
example : VariableUnknown (some (b!"9\nfaked")) (-1) := (variableUnknown_iff _ _).mpr (by decide +kernel)

/-- The file: the value of the variable is written as it is, directives and line ends included. -/
def sampleStamp : Stamp := ⟨b!"2024-01-01 10:00:00", b!"Success", fun _ => true⟩

def filesOf : Outcome Logger.State → Bytes
  | .ok s => s.files (b!"/tmp/open-license.log")
  | _ => []

example : filesOf (Logger.run ⟨none, fun _ => []⟩ [Entry.op (b!"src/") none sampleStamp (.unknownStrategy (b!"9%n\nfaked"))])
    = b!"2024-01-01 10:00:00[WARN] (src/hw_identifier/hw_identifier_facade.cpp:45: errno: Success) unknown IDENTIFICATION_STRATEGY 9%n\nfaked\n" := by
  decide +kernel

end Licensecc.LogText
