import Verif.Props.ThreadsCells
/-!
# Calls in several threads (C69): which cells a call accesses
-/
namespace Licensecc.Threads
open Licensecc.Spec

/-- The limits that come before the hardware identifier hold. -/
def InForce (cfg : Config) (w : World) (l : FullLicense) (now : Int) : Prop :=
  l.magic = cfg.magic
  ∧ (∀ d, SMap.find? kExpiry l.limits = some d → ∃ t, secondsFromEpoch w.mktime d = .ok t ∧ now ≤ t)
  ∧ (∀ d, SMap.find? kBegin l.limits = some d → ∃ t, secondsFromEpoch w.mktime d = .ok t ∧ t ≤ now)

/-- Checking the identifier accesses the cell. -/
def HwUses (v : View) (c : Cell) (id : Bytes) : Prop :=
  c = .logFile ∧ HardwareTrouble v.sys id ∨ c = .mntBuffer ∧ ListsDisks v.sys ∧ ∃ h, HwId.ofString id = .ok h ∧ h.strategy = 2

theorem uses_client {v : View} {c : Cell} (hv : Short v) (hc : c ≠ .tmBuffer) {l : FullLicense} {r r' : Registry} {b : Bool}
    (h : checkClient (worldAt v false) l r = .ok (r', b)) :
    UsesIff (checkClientP v l r) c (∃ id, SMap.find? kClient l.limits = some id ∧ HwUses v c id) := by
  unfold checkClientP
  unfold checkClient at h
  cases hk : SMap.find? kClient l.limits with
  | none => exact (uses_ret _ c).congr (by simp)
  | some id =>
    rw [hk] at h
    obtain ⟨ev, hev, h⟩ := Outcome.bind_eq_ok.mp h
    refine (uses_bind ((follows_validate v id).gives hv) (uses_validate hv hc hev) (r := fun _ => False) fun ev _ =>
      (uses_bind (gives_ret _) (uses_ret _ c) (r := fun _ => False) fun _ _ => uses_ret _ c).congr (by simp)).congr ?_
    simp [HwUses]

theorem uses_limits {cfg : Config} {v : View} {c : Cell} (hv : Short v) (hc : c ≠ .tmBuffer) {l : FullLicense} {r r' : Registry}
    {k k' : Nat} {b : Bool} (h : verifyLimits cfg (worldAt v false) l r k = .ok (r', k', b)) :
    UsesIff (verifyLimitsP cfg v l r k) c (InForce cfg v.sys.world l (v.sys.clock k)
      ∧ ∃ id, SMap.find? kClient l.limits = some id ∧ HwUses v c id) := by
  have hw : (worldAt v false).mktime = v.sys.world.mktime := rfl
  have hcl : (worldAt v false).clock = v.sys.clock := rfl
  unfold verifyLimitsP
  simp only [verifyLimits] at h
  unfold InForce
  by_cases hm : l.magic = cfg.magic
  · rw [if_pos hm] at h ⊢
    obtain ⟨⟨r1, v1⟩, h1, h⟩ := Outcome.bind_eq_ok.mp h
    have e1 := checkExpiry_ok h1
    rw [hw, hcl] at e1
    rw [quiet_world]
    rw [hcl] at h1 h
    rw [h1]
    refine (uses_bind (gives_ret _) (uses_ret _ c) (r := fun x => x.2 = true ∧
      (∀ d, SMap.find? kBegin l.limits = some d → ∃ t, secondsFromEpoch v.sys.world.mktime d = .ok t ∧ t ≤ v.sys.clock k)
      ∧ ∃ id, SMap.find? kClient l.limits = some id ∧ HwUses v c id) fun x hx => ?_).congr ?_
    · obtain rfl := Outcome.ok.inj hx
      dsimp only at h ⊢
      cases v1 with
      | false => exact (uses_ret _ c).congr (by simp)
      | true =>
        rw [if_pos rfl] at h ⊢
        obtain ⟨⟨r2, v2⟩, h2, h⟩ := Outcome.bind_eq_ok.mp h
        have e2 := checkBegin_ok h2
        rw [hw] at e2
        rw [h2]
        refine (uses_bind (gives_ret _) (uses_ret _ c) (r := fun x => x.2 = true
          ∧ ∃ id, SMap.find? kClient l.limits = some id ∧ HwUses v c id) fun x hx => ?_).congr ?_
        · obtain rfl := Outcome.ok.inj hx
          dsimp only at h ⊢
          cases v2 with
          | false => exact (uses_ret _ c).congr (by simp)
          | true =>
            rw [if_pos rfl] at h ⊢
            obtain ⟨⟨r3, v3⟩, h3, h⟩ := Outcome.bind_eq_ok.mp h
            have hg : Gives (checkClientP v l r2) (checkClient (worldAt v false) l r2) := by
              refine Follows.gives (x := fun b => checkClient (worldAt v b) l r2) ?_ hv
              unfold checkClientP checkClient
              cases SMap.find? kClient l.limits with
              | none => exact follows_ret v _
              | some s => exact follows_bind (follows_validate v _) fun ev => follows_bind (follows_ret v _) fun _ => follows_ret v _
            exact (uses_bind hg (uses_client hv hc h3) (r := fun _ => False) fun _ _ => uses_ret _ c).congr (by simp)
        · simp [← e2]
    · simp [← e1, hm, and_assoc]
  · rw [if_neg hm] at h ⊢
    exact (uses_bind (gives_ret _) (uses_ret _ c) (r := fun _ => False) fun _ _ => uses_ret _ c).congr (by simp [hm])

theorem uses_judge {cfg : Config} {v : View} {c : Cell} {caller : Option Caller} (hv : Short v) (hc : c ≠ .tmBuffer)
    {top : Nat} (ls : List FullLicense) (hclock : ∀ l ∈ ls, ∀ k < top, InForce cfg v.sys.world (withMagic caller l) (v.sys.clock k)
      ↔ InForce cfg v.sys.world (withMagic caller l) (v.sys.clock 0)) : ∀ {r r' : Registry} {k k' : Nat} {oks errs : List LicInfo},
    judgeLoop cfg (worldAt v false) caller r k ls = .ok (r', k', oks, errs) → k' ≤ top →
    UsesIff (judgeLoopP cfg v caller r k ls) c (∃ l ∈ ls, c = .sslInitialized
      ∨ c = .logFile ∧ (worldAt v false).verify l.printForSign l.signature = .ok false
      ∨ (worldAt v false).verify l.printForSign l.signature = .ok true
        ∧ InForce cfg v.sys.world (withMagic caller l) (v.sys.clock 0) ∧ ∃ id, SMap.find? kClient l.limits = some id ∧ HwUses v c id) := by
  induction ls with
  | nil => intro r r' k k' oks errs h _; exact (uses_ret _ c).congr (by simp)
  | cons l ls ih =>
    intro r r' k k' oks errs h htop
    replace ih := @ih fun l hl => hclock l (List.mem_cons_of_mem _ hl)
    replace hclock := hclock l List.mem_cons_self
    rw [judgeLoop] at h
    rw [judgeLoopP]
    dsimp only at h
    obtain ⟨⟨r1, g⟩, h1, h⟩ := Outcome.bind_eq_ok.mp h
    obtain ⟨⟨i, k1⟩, h2, h⟩ := Outcome.bind_eq_ok.mp h
    have hver := verifySignature_ok h1
    rw [show (withMagic caller l).printForSign = l.printForSign from rfl, show (withMagic caller l).signature = l.signature from rfl] at hver
    have hfol : Follows v (verifySignatureP v (withMagic caller l) r) (fun b => verifySignature (worldAt v b) (withMagic caller l) r) := by
      unfold verifySignatureP verifySignature
      exact follows_bind (follows_verify v _ _) fun g => follows_bind (follows_ret v _) fun _ => follows_ret v _
    have huse : UsesIff (verifySignatureP v (withMagic caller l) r) c (c = .sslInitialized
        ∨ c = .logFile ∧ (worldAt v false).verify l.printForSign l.signature = .ok false) := by
      unfold verifySignatureP
      exact (uses_bind ((follows_verify v _ _).gives hv) (uses_verify hv hc _ _) (r := fun _ => False) fun _ _ =>
        (uses_bind (gives_ret _) (uses_ret _ c) (r := fun _ => False) fun _ _ => uses_ret _ c).congr (by simp)).congr (by
          simp [show (withMagic caller l).printForSign = l.printForSign from rfl,
            show (withMagic caller l).signature = l.signature from rfl])
    let rest : Prop := ∃ l ∈ ls, c = .sslInitialized
      ∨ c = .logFile ∧ (worldAt v false).verify l.printForSign l.signature = .ok false
      ∨ (worldAt v false).verify l.printForSign l.signature = .ok true
        ∧ InForce cfg v.sys.world (withMagic caller l) (v.sys.clock 0) ∧ ∃ id, SMap.find? kClient l.limits = some id ∧ HwUses v c id
    refine (uses_bind (hfol.gives hv) huse (r := fun x => x.2 = true ∧ InForce cfg v.sys.world (withMagic caller l) (v.sys.clock 0)
      ∧ (∃ id, SMap.find? kClient l.limits = some id ∧ HwUses v c id) ∨ rest) fun x hx => ?_).congr ?_
    · try dsimp only at hx
      rw [h1] at hx
      obtain rfl := Outcome.ok.inj hx
      dsimp only
      rw [quiet_world, h2]
      refine (uses_bind (gives_ret _) (uses_ret _ c) (r := fun _ => g = true ∧ InForce cfg v.sys.world (withMagic caller l) (v.sys.clock 0)
        ∧ (∃ id, SMap.find? kClient l.limits = some id ∧ HwUses v c id) ∨ rest) fun y hy => ?_).congr (by simp)
      obtain rfl := Outcome.ok.inj hy
      dsimp only at h ⊢
      cases g with
      | true =>
        rw [if_pos rfl] at h ⊢
        obtain ⟨⟨r2, k2, b⟩, h3, h⟩ := Outcome.bind_eq_ok.mp h
        obtain ⟨⟨r3, k3, oks', errs'⟩, h4, h⟩ := Outcome.bind_eq_ok.mp h
        have hl := uses_limits hv hc h3
        have hk' : k3 = k' := by simp only [Outcome.pure_eq, Outcome.ok.injEq, Prod.mk.injEq] at h; exact h.2.1
        have hk2 : k2 ≤ k3 := judged_mono (judgeLoop_judged h4)
        have hk1 := (verifyLimits_ok h3).1
        rw [hclock _ (by omega)] at hl
        refine (uses_bind ((follows_limits cfg v _ _ _).gives hv) hl (r := fun _ => rest) fun z hz => ?_).congr ?_
        · try dsimp only at hz
          rw [h3] at hz
          obtain rfl := Outcome.ok.inj hz
          refine (uses_bind ((follows_judge cfg v caller _ _ _).gives hv) (ih h4 (by omega)) (r := fun _ => False) fun _ _ => uses_ret _ c).congr ?_
          simp [rest]
        · try dsimp only
          rw [h3]
          simp [show (withMagic caller l).limits = l.limits from rfl]
      | false =>
        rw [if_neg (by simp)] at h ⊢
        obtain ⟨⟨r3, k3, oks', errs'⟩, h4, h⟩ := Outcome.bind_eq_ok.mp h
        have hk' : k3 = k' := by simp only [Outcome.pure_eq, Outcome.ok.injEq, Prod.mk.injEq] at h; exact h.2.1
        refine (uses_bind ((follows_judge cfg v caller _ _ _).gives hv) (ih h4 (by omega)) (r := fun _ => False) fun _ _ => uses_ret _ c).congr ?_
        simp [rest]
    · try dsimp only
      rw [h1]
      simp only [Outcome.ok.injEq, exists_eq_left', List.mem_cons, exists_eq_or_imp, hver]
      cases g <;> grind

theorem mstrlcpyLoop_fits : ∀ (n : Nat) (dst src : Bytes), n < dst.length → n ≤ src.length → ∃ r, mstrlcpyLoop n dst src = .ok r := by
  intro n
  induction n with
  | zero => intro dst src h _; cases dst with
    | nil => simp at h
    | cons d ds => exact ⟨_, rfl⟩
  | succ n ih => intro dst src h h'; cases dst with
    | nil => simp at h
    | cons d ds => cases src with
      | nil => simp at h'
      | cons x xs =>
        obtain ⟨r, hr⟩ := ih ds xs (by simpa using h) (by simpa using h')
        rw [mstrlcpyLoop]
        split
        · exact ⟨_, rfl⟩
        · rw [hr]; exact ⟨_, rfl⟩

theorem moduleName_none (v : View) : (worldAt v false).moduleName = none ↔ v.sys.exe = none := by
  show (match getModuleName v.sys.exe moduleArray with
    | .ok r => r
    | _ => none) = none ↔ _
  cases he : v.sys.exe with
  | none => simp [getModuleName]
  | some t =>
    simp only [getModuleName, reduceCtorEq, iff_false]
    have hlen : (t.take (pathArray - 1)).length ≤ 1023 := by
      rw [List.length_take]; unfold pathArray; omega
    generalize t.take (pathArray - 1) = got at hlen
    have hp : pathArray = 1024 := rfl
    rw [if_neg (by omega)]
    obtain ⟨r, hr⟩ := mstrlcpyLoop_fits got.length moduleArray (got ++ List.replicate (pathArray - got.length) 0)
      (by unfold moduleArray; rw [List.length_replicate]; omega) (by simp)
    simp [mstrlcpy, hr]

theorem uses_locations {v : View} {c : Cell} (hv : Short v) (hc : c ≠ .tmBuffer) (l : Locator) (r : Registry) :
    UsesIff (licenseLocationsP v l r) c (c = .logFile ∧ l = .applicationFolder ∧ v.sys.exe = none) := by
  unfold licenseLocationsP
  rw [quiet_world]
  have hm := moduleName_none v
  cases hn : (worldAt v false).moduleName with
  | none =>
    rw [hn] at hm
    have he := hm.mp rfl
    cases l with
    | applicationFolder => exact (uses_logged hv hc _).congr (by simp [he])
    | environmentVarLocation => exact (uses_ret _ c).congr (by simp)
    | environmentVarData => exact (uses_ret _ c).congr (by simp)
    | externalDefinition loc => exact (uses_ret _ c).congr (by simp)
  | some m =>
    rw [hn] at hm
    have he : v.sys.exe ≠ none := fun h => by simpa using hm.mpr h
    cases l <;> exact (uses_ret _ c).congr (by simp [he])

theorem uses_locators {v : View} {c : Cell} (hv : Short v) (hc : c ≠ .tmBuffer) (f : Bytes) (ls : List Locator) :
    ∀ {r r' : Registry} {lics : List FullLicense}, readLocators (worldAt v false) f r ls = .ok (r', lics) →
    UsesIff (readLocatorsP v f r ls) c (c = .logFile ∧ .applicationFolder ∈ ls ∧ v.sys.exe = none) := by
  induction ls with
  | nil => intro r r' lics _; exact (uses_ret _ c).congr (by simp)
  | cons l ls ih =>
    intro r r' lics h
    rw [readLocators] at h
    rw [readLocatorsP]
    obtain ⟨⟨r1, locs, b⟩, h1, h⟩ := Outcome.bind_eq_ok.mp h
    obtain ⟨⟨r2, lics1⟩, h2, h⟩ := Outcome.bind_eq_ok.mp h
    obtain ⟨⟨r3, lics2⟩, h3, h⟩ := Outcome.bind_eq_ok.mp h
    refine (uses_bind ((follows_locations v l r).gives hv) (uses_locations hv hc l r)
      (r := fun _ => c = .logFile ∧ .applicationFolder ∈ ls ∧ v.sys.exe = none) fun x hx => ?_).congr ?_
    · try dsimp only at hx
      rw [h1] at hx
      obtain rfl := Outcome.ok.inj hx
      dsimp only
      rw [quiet_world]
      try dsimp only at h2
      rw [h2]
      refine (uses_bind (gives_ret _) (uses_ret _ c) (r := fun _ => c = .logFile ∧ .applicationFolder ∈ ls ∧ v.sys.exe = none)
        fun y hy => ?_).congr (by simp)
      obtain rfl := Outcome.ok.inj hy
      exact (uses_bind ((follows_locators v f ls _).gives hv) (ih h3) (r := fun _ => False) fun _ _ => uses_ret _ c).congr (by simp)
    · try dsimp only
      rw [h1]
      simp only [Outcome.ok.injEq, exists_eq_left', List.mem_cons]
      grind

theorem uses_read {cfg : Config} {v : View} {c : Cell} {hint : Option LicenseLocation} (hv : Short v) (hc : c ≠ .tmBuffer) {f : Bytes}
    {r : Registry} {lics : List FullLicense} (h : readLicenses cfg (worldAt v false) hint f = .ok (r, lics)) :
    UsesIff (readLicensesP cfg v hint f) c (c = .logFile ∧ cfg.nearModule = true ∧ v.sys.exe = none) := by
  have hmem : .applicationFolder ∈ activeStrategies cfg hint ↔ cfg.nearModule = true := by
    rw [mem_activeStrategies]; simp
  unfold readLicensesP
  simp only [readLicenses] at h
  dsimp only
  by_cases he : (activeStrategies cfg hint).isEmpty = true
  · rw [if_pos he]
    rw [List.isEmpty_iff] at he
    rw [he] at hmem
    simp only [List.not_mem_nil, false_iff] at hmem
    exact (uses_ret _ c).congr (by simp [hmem])
  · rw [if_neg he] at h ⊢
    obtain ⟨⟨r1, lics1⟩, h1, h⟩ := Outcome.bind_eq_ok.mp h
    refine (uses_bind ((follows_locators v f _ _).gives hv) (uses_locators hv hc f _ h1) (r := fun _ => False) fun x _ => ?_).congr
      (by simp [hmem])
    obtain ⟨r2, lics2⟩ := x
    dsimp only
    split
    · exact (uses_bind (gives_ret _) (uses_ret _ c) (r := fun _ => False) fun _ _ => uses_ret _ c).congr (by simp)
    · exact uses_ret _ c

/-- What a call says about a cell. -/
def Call.Touches (x : Call) (c : Cell) : Prop :=
  c = .logFile ∧ x.Logs ∨ c = .mntBuffer ∧ x.ReadsFstab ∨ c = .sslInitialized ∧ x.Verifies

theorem short_world {v : View} (hv : Short v) : v.sys.world = worldAt v false := by
  rw [world_eq]
  have : v.sys.logOverruns = false := by
    rw [Bool.eq_false_iff]
    intro ho
    obtain ⟨_, d, h1, h2⟩ := (Logger.overruns_iff _ _).mp ho
    have := hv d h1
    omega
  rw [this]

theorem judge_verdicts {cfg : Config} {w : World} {caller : Option Caller} (ls : List FullLicense) :
    ∀ {r r' : Registry} {k k' : Nat} {oks errs : List LicInfo}, judgeLoop cfg w caller r k ls = .ok (r', k', oks, errs) →
    ∀ l ∈ ls, ∃ g, w.verify l.printForSign l.signature = .ok g := by
  induction ls with
  | nil => intro r r' k k' oks errs _ l hl; simp at hl
  | cons l ls ih =>
    intro r r' k k' oks errs h l' hl'
    rw [judgeLoop] at h
    dsimp only at h
    obtain ⟨⟨r1, g⟩, h1, h⟩ := Outcome.bind_eq_ok.mp h
    obtain ⟨⟨i, k1⟩, h2, h⟩ := Outcome.bind_eq_ok.mp h
    rcases List.mem_cons.mp hl' with rfl | hl'
    · exact ⟨g, verifySignature_ok h1⟩
    · dsimp only at h
      cases g with
      | true =>
        rw [if_pos rfl] at h
        obtain ⟨⟨r2, k2, b⟩, h3, h⟩ := Outcome.bind_eq_ok.mp h
        obtain ⟨⟨r3, k3, oks', errs'⟩, h4, h⟩ := Outcome.bind_eq_ok.mp h
        exact ih h4 l' hl'
      | false =>
        rw [if_neg (by simp)] at h
        obtain ⟨⟨r3, k3, oks', errs'⟩, h4, h⟩ := Outcome.bind_eq_ok.mp h
        exact ih h4 l' hl'

theorem uses_acquire {cfg : Config} {v : View} {c : Cell} {caller : Option Caller} {hint : Option LicenseLocation} {out : Option LicInfo}
    (hv : Short v) (hc : c ≠ .tmBuffer) (hclock : (Call.acquire cfg v caller hint out).Steady) {res : AcquireResult}
    (h : acquire cfg v.sys.world caller hint out = .ok res) :
    UsesIff (acquireP cfg v caller hint out) c ((Call.acquire cfg v caller hint out).Touches c) := by
  have hw := short_world hv
  have hres := h
  rw [hw] at h
  unfold acquire at h
  obtain ⟨f, h1, h⟩ := Outcome.bind_eq_ok.mp h
  obtain ⟨⟨r, lics⟩, h2, h⟩ := Outcome.bind_eq_ok.mp h
  dsimp only at h
  have hf := featureOf_iff.mp h1
  -- the texts that are verified are the licences
  have hmem := mem_readLicenses h2
  have hver : ∀ g text, Verified cfg v caller hint g text ↔ g = f ∧ ∃ l ∈ lics, ∃ src, IsLicence f src text l
      ∧ Offers cfg (worldAt v false) hint src text := by
    intro g text
    unfold Verified
    rw [hw]
    constructor
    · rintro ⟨hg, ⟨src, ho⟩, hco⟩
      obtain rfl := featureIs_unique hg hf
      obtain ⟨l, hl, hi⟩ := licence_of_complete h2 ho hco
      exact ⟨rfl, l, hl, src, hi, ho⟩
    · rintro ⟨rfl, l, hl, src, hi, ho⟩
      exact ⟨hf, ⟨src, ho⟩, complete_of_licence hi⟩
  -- what is done with one licence
  have hmagic : ∀ l ∈ lics, (withMagic caller l).magic = magicOf caller := by
    intro l hl
    obtain ⟨src, text, _, hi⟩ := (hmem l).mp hl
    cases caller <;> simp [withMagic, magicOf, hi.magic]
  have hforceAt : ∀ l ∈ lics, ∀ src text, IsLicence f src text l → ∀ k, (InForce cfg v.sys.world (withMagic caller l) (v.sys.clock k)
      ↔ magicOf caller = cfg.magic ∧ NotExpired v.sys.world f text (v.sys.clock k) ∧ Started v.sys.world f text (v.sys.clock k)) := by
    intro l hl src text hi k
    unfold InForce NotExpired Started
    rw [hmagic l hl]
    simp only [show (withMagic caller l).limits = l.limits from rfl, hi.limits]
  have hforce : ∀ l ∈ lics, ∀ src text, IsLicence f src text l → (InForce cfg v.sys.world (withMagic caller l) (v.sys.clock 0)
      ↔ magicOf caller = cfg.magic ∧ NotExpired v.sys.world f text (v.sys.clock 0) ∧ Started v.sys.world f text (v.sys.clock 0)) :=
    fun l hl src text hi => hforceAt l hl src text hi 0
  have hsteady : ∀ l ∈ lics, ∀ k < res.ticks, InForce cfg v.sys.world (withMagic caller l) (v.sys.clock k)
      ↔ InForce cfg v.sys.world (withMagic caller l) (v.sys.clock 0) := by
    intro l hl k hk
    obtain ⟨src, text, ho, hi⟩ := (hmem l).mp hl
    rw [hforceAt l hl src text hi k, hforceAt l hl src text hi 0, hclock res hres f text ((hver f text).mpr ⟨rfl, l, hl, src, hi, ho⟩) k hk]
  have hchecked : ∀ id, HardwareChecked cfg v caller hint id ↔ ∃ l ∈ lics, (worldAt v false).verify l.printForSign l.signature = .ok true
      ∧ InForce cfg v.sys.world (withMagic caller l) (v.sys.clock 0) ∧ SMap.find? kClient l.limits = some id := by
    intro id
    unfold HardwareChecked
    constructor
    · rintro ⟨g, text, hvf, hs, hm, he, hb, hid⟩
      obtain ⟨rfl, l, hl, src, hi, ho⟩ := (hver g text).mp hvf
      rw [hw, signed_iff hi] at hs
      exact ⟨l, hl, hs, (hforce l hl src text hi).mpr ⟨hm, he, hb⟩, (hi.limits _ _).mpr hid⟩
    · rintro ⟨l, hl, hs, hin, hid⟩
      obtain ⟨src, text, ho, hi⟩ := (hmem l).mp hl
      obtain ⟨hm, he, hb⟩ := (hforce l hl src text hi).mp hin
      refine ⟨f, text, (hver f text).mpr ⟨rfl, l, hl, src, hi, ho⟩, ?_, hm, he, hb, (hi.limits _ _).mp hid⟩
      rw [hw, signed_iff hi]; exact hs
  have hall : (∃ l ∈ lics, c = .sslInitialized
      ∨ c = .logFile ∧ (worldAt v false).verify l.printForSign l.signature = .ok false
      ∨ (worldAt v false).verify l.printForSign l.signature = .ok true
        ∧ InForce cfg v.sys.world (withMagic caller l) (v.sys.clock 0) ∧ ∃ id, SMap.find? kClient l.limits = some id ∧ HwUses v c id)
      ↔ c = .sslInitialized ∧ lics ≠ [] ∨ c = .logFile ∧ (∃ l ∈ lics, (worldAt v false).verify l.printForSign l.signature = .ok false)
        ∨ ∃ id, HardwareChecked cfg v caller hint id ∧ HwUses v c id := by
    simp only [hchecked]
    constructor
    · rintro ⟨l, hl, h | ⟨h, h'⟩ | ⟨g1, g2, id, g3, g4⟩⟩
      · exact .inl ⟨h, List.ne_nil_of_mem hl⟩
      · exact .inr (.inl ⟨h, l, hl, h'⟩)
      · exact .inr (.inr ⟨id, ⟨l, hl, g1, g2, g3⟩, g4⟩)
    · rintro (⟨h, hne⟩ | ⟨h, l, hl, h'⟩ | ⟨id, ⟨l, hl, g1, g2, g3⟩, g4⟩)
      · obtain ⟨l, hl⟩ := List.exists_mem_of_ne_nil _ hne
        exact ⟨l, hl, .inl h⟩
      · exact ⟨l, hl, .inr (.inl ⟨h, h'⟩)⟩
      · exact ⟨l, hl, .inr (.inr ⟨g1, g2, id, g3, g4⟩)⟩
  have hne : lics ≠ [] ↔ ∃ f text, Verified cfg v caller hint f text := by
    simp only [hver]
    constructor
    · intro hne
      obtain ⟨l, hl⟩ := List.exists_mem_of_ne_nil _ hne
      obtain ⟨src, text, ho, hi⟩ := (hmem l).mp hl
      exact ⟨f, text, rfl, l, hl, src, hi, ho⟩
    · rintro ⟨_, _, _, l, hl, _⟩
      exact List.ne_nil_of_mem hl
  generalize hQ : (∃ l ∈ lics, c = .sslInitialized
      ∨ c = .logFile ∧ (worldAt v false).verify l.printForSign l.signature = .ok false
      ∨ (worldAt v false).verify l.printForSign l.signature = .ok true
        ∧ InForce cfg v.sys.world (withMagic caller l) (v.sys.clock 0) ∧ ∃ id, SMap.find? kClient l.limits = some id ∧ HwUses v c id)
    = Q at hall
  have hprog : UsesIff (acquireP cfg v caller hint out) c (c = .logFile ∧ cfg.nearModule = true ∧ v.sys.exe = none ∨ Q)
      ∧ ∀ l ∈ lics, ∃ g, (worldAt v false).verify l.printForSign l.signature = .ok g := by
    unfold acquireP
    rw [h1]
    cases lics with
    | nil =>
      have hQ' : ¬ Q := by rw [← hQ]; simp
      refine ⟨(uses_bind (gives_ret _) (uses_ret _ c) (r := fun _ => c = .logFile ∧ cfg.nearModule = true ∧ v.sys.exe = none)
        fun g hg => ?_).congr (by simp [hQ']), by simp⟩
      obtain rfl := Outcome.ok.inj hg
      refine (uses_bind ((follows_read cfg v hint f).gives hv) (uses_read hv hc h2) (r := fun _ => False) fun x hx => ?_).congr (by simp)
      try dsimp only at hx
      rw [h2] at hx
      obtain rfl := Outcome.ok.inj hx
      exact uses_ret _ c
    | cons l ls =>
      unfold judge at h
      dsimp only at h
      obtain ⟨⟨r', k', oks, errs⟩, h3, h⟩ := Outcome.bind_eq_ok.mp h
      have hticks : k' ≤ res.ticks := by
        dsimp only at h
        cases oks with
        | cons o oks => have := finish_ok h; omega
        | nil =>
          obtain ⟨x, _, h⟩ := Outcome.bind_eq_ok.mp h
          obtain ⟨y, _, h⟩ := Outcome.bind_eq_ok.mp h
          have := finish_ok h; omega
      refine ⟨(uses_bind (gives_ret _) (uses_ret _ c) (r := fun _ => c = .logFile ∧ cfg.nearModule = true ∧ v.sys.exe = none ∨ Q)
        fun g hg => ?_).congr (by simp), judge_verdicts _ h3⟩
      obtain rfl := Outcome.ok.inj hg
      refine (uses_bind ((follows_read cfg v hint f).gives hv) (uses_read hv hc h2) (r := fun _ => Q) fun x hx => ?_).congr ?_
      · try dsimp only at hx
        rw [h2] at hx
        obtain rfl := Outcome.ok.inj hx
        dsimp only
        exact (uses_bind ((follows_judge cfg v caller _ _ _).gives hv) (uses_judge hv hc _ hsteady h3 hticks) (r := fun _ => False)
          fun _ _ => uses_ret _ c).congr (by simp only [and_false, exists_false, or_false]; rw [hQ])
      · try dsimp only
        rw [h2]
        simp
  refine hprog.1.congr ?_
  rw [hall, hne]
  have hsig : (∃ l ∈ lics, (worldAt v false).verify l.printForSign l.signature = .ok false)
      ↔ ∃ f text, Verified cfg v caller hint f text ∧ ¬ Signed v.sys.world f text := by
    simp only [hver]
    constructor
    · rintro ⟨l, hl, hf⟩
      obtain ⟨src, text, ho, hi⟩ := (hmem l).mp hl
      refine ⟨f, text, ⟨rfl, l, hl, src, hi, ho⟩, ?_⟩
      rw [hw, signed_iff hi, hf]; simp
    · rintro ⟨_, text, ⟨rfl, l, hl, src, hi, ho⟩, hns⟩
      rw [hw, signed_iff hi] at hns
      obtain ⟨g, hg⟩ := hprog.2 l hl
      refine ⟨l, hl, ?_⟩
      cases g with
      | false => exact hg
      | true => exact absurd hg hns
  rw [hsig]
  clear hQ hall hprog hchecked hforce hmagic hver hmem hne hsig
  unfold Call.Touches Call.Logs Call.ReadsFstab Call.Verifies HwUses
  dsimp only
  constructor
  · rintro (⟨h1, h2⟩ | ⟨h1, h2⟩ | ⟨h1, h2⟩ | ⟨id, h1, ⟨h2, h3⟩ | ⟨h2, h3, h, h4, h5⟩⟩)
    · exact .inl ⟨h1, .inl h2⟩
    · exact .inr (.inr ⟨h1, h2⟩)
    · exact .inl ⟨h1, .inr (.inl h2)⟩
    · exact .inl ⟨h2, .inr (.inr ⟨id, h1, h3⟩)⟩
    · exact .inr (.inl ⟨h2, h3, id, h, h1, h4, h5⟩)
  · rintro (⟨h1, h2 | h2 | ⟨id, h2, h3⟩⟩ | ⟨h1, h2, id, h, h3, h4, h5⟩ | ⟨h1, h2⟩)
    · exact .inl ⟨h1, h2⟩
    · exact .inr (.inr (.inl ⟨h1, h2⟩))
    · exact .inr (.inr (.inr ⟨id, h2, .inl ⟨h1, h3⟩⟩))
    · exact .inr (.inr (.inr ⟨id, h3, .inr ⟨h1, h2, h, h4, h5⟩⟩))
    · exact .inr (.inl ⟨h1, h2⟩)

theorem noAdapters {v : View} (h : v.sys.net.ifaddrs = none) {s : Strategy} (hs : s = .ethernet ∨ s = .ip) :
    alternativeIds (osAt v false).machine s = .ok [] ∨ ∃ e, alternativeIds (osAt v false).machine s = .throw e := by
  rcases hs with rfl | rfl <;>
    simp [alternativeIds, generateEthernetIds, adapters_no_throw, getAdapterInfos, getAdapterInfosNamed, h]

theorem disks_ub {v : View} (h : getDiskInfos v.sys.disks = .ub) : alternativeIds (osAt v false).machine .disk = .ub := by
  simp [alternativeIds, generateDiskIds, Os.machine, osAt, h]

/-- Which strategies list the disks. -/
def DiskStrategy (v : View) (s : Strategy) : Prop :=
  s = .disk ∨ s = .default ∧ ∃ e, execSummary v.sys.host = .ok e ∧ e.virtualization = .none

theorem uses_generate {v : View} {c : Cell} (hv : Short v) (hc : c ≠ .tmBuffer) (s : Strategy)
    (hub : generatePcId (osAt v false).machine s ≠ .ub) :
    ∃ q : Prop, UsesIff (generatePcIdP v s) c (c = .logFile ∧ q ∨ c = .mntBuffer ∧ ListsDisks v.sys ∧ DiskStrategy v s)
      ∧ (q → ∀ h, generatePcId (osAt v false).machine s ≠ .ok (some h)) := by
  obtain ⟨hd1, hd2⟩ := disks_cases v.sys.disks
  have hlists : getDiskInfos v.sys.disks ≠ .ub → (Lists v.sys.disks ↔ ListsDisks v.sys) := by
    intro h
    unfold Lists ListsDisks
    rw [hd2 h]
  have hone : ∀ s : Strategy, UsesIff (alternativeIdsP v s >>= fun ids => (return ids.head? : Prog (Option HwId))) c
      (c = .logFile ∧ (s = .ethernet ∨ s = .ip) ∧ v.sys.net.ifaddrs = none ∨ c = .mntBuffer ∧ s = .disk ∧ Lists v.sys.disks) := fun s =>
    (uses_bind ((follows_ids v s).gives hv) (uses_ids hv hc s) (r := fun _ => False) fun _ _ => uses_ret _ c).congr (by simp)
  have hnet : ∀ s : Strategy, s = .ethernet ∨ s = .ip → generatePcIdP v s = (do return (← alternativeIdsP v s).head?) →
      generatePcId (osAt v false).machine s = generateFirst (osAt v false).machine s →
      ∃ q : Prop, UsesIff (generatePcIdP v s) c (c = .logFile ∧ q ∨ c = .mntBuffer ∧ ListsDisks v.sys ∧ DiskStrategy v s)
      ∧ (q → ∀ h, generatePcId (osAt v false).machine s ≠ .ok (some h)) := by
    intro s hs h1 h2
    refine ⟨v.sys.net.ifaddrs = none, ?_, fun hi h => ?_⟩
    · rw [h1]
      refine (hone s).congr ?_
      unfold DiskStrategy
      rcases hs with rfl | rfl <;> simp
    · rw [h2]
      unfold generateFirst
      rcases noAdapters hi hs with h | ⟨e, h⟩ <;> simp [h]
  cases s with
  | ethernet => exact hnet _ (.inl rfl) rfl rfl
  | ip => exact hnet _ (.inr rfl) rfl rfl
  | disk =>
    refine ⟨False, (hone .disk).congr ?_, fun h => h.elim⟩
    have : getDiskInfos v.sys.disks ≠ .ub := by
      intro h
      apply hub
      simp [generatePcId, generateFirst, disks_ub h]
    simp [hlists this, DiskStrategy]
  | default =>
    rw [show generatePcIdP v .default = (do
      let e ← .ret (execSummary v.sys.host)
      tryStrategiesP v (availableStrategies e)) from rfl]
    have hgen : generatePcId (osAt v false).machine .default = (do
      tryStrategies (osAt v false).machine (availableStrategies (← execSummary v.sys.host))) := rfl
    rw [hgen] at hub ⊢
    cases he : execSummary v.sys.host with
    | ub => exact ⟨False, (uses_bind (gives_ret _) (uses_ret _ c) (r := fun _ => False) (fun _ h => by simp at h)).congr
        (by simp [DiskStrategy, he]), fun h => h.elim⟩
    | throw e => exact ⟨False, (uses_bind (gives_ret _) (uses_ret _ c) (r := fun _ => False) (fun _ h => by simp at h)).congr
        (by simp [DiskStrategy, he]), fun h => h.elim⟩
    | ok e =>
      rw [he] at hub
      simp only [Outcome.ok_bind] at hub ⊢
      have hunknown : ∀ ns, UsesIff (tryStrategiesP v ((-2) :: ns)) c False ∧ tryStrategies (osAt v false).machine ((-2) :: ns) = .throw .logicError := by
        intro ns
        have : getStrategy (-2) = .throw .logicError := rfl
        constructor
        · rw [tryStrategiesP]
          exact (uses_bind (gives_ret _) (uses_ret _ c) (r := fun _ => False) (fun _ h => by rw [this] at h; simp at h)).congr (by simp)
        · rw [tryStrategies, this]; rfl
      have h4 : ∀ ns, UsesIff (tryStrategiesP v (4 :: ns)) c False ∧ tryStrategies (osAt v false).machine (4 :: ns) = .throw .logicError := by
        intro ns
        have : getStrategy 4 = .throw .logicError := rfl
        constructor
        · rw [tryStrategiesP]
          exact (uses_bind (gives_ret _) (uses_ret _ c) (r := fun _ => False) (fun _ h => by rw [this] at h; simp at h)).congr (by simp)
        · rw [tryStrategies, this]; rfl
      have hfirst : ∀ (n : Int) (s : Strategy) (ns : List Int), getStrategy n = .ok s → UsesIff (tryStrategiesP v ns) c False →
          UsesIff (tryStrategiesP v (n :: ns)) c
            (c = .logFile ∧ (s = .ethernet ∨ s = .ip) ∧ v.sys.net.ifaddrs = none ∨ c = .mntBuffer ∧ s = .disk ∧ Lists v.sys.disks) := by
        intro n s ns hn hns
        rw [tryStrategiesP]
        refine (uses_bind (gives_ret _) (uses_ret _ c) (r := fun s => (c = .logFile ∧ (s = .ethernet ∨ s = .ip) ∧ v.sys.net.ifaddrs = none
            ∨ c = .mntBuffer ∧ s = .disk ∧ Lists v.sys.disks)) fun s' hs' => ?_).congr (by simp [hn])
        refine (uses_bind ((follows_ids v s').gives hv) (uses_ids hv hc s') (r := fun _ => False) fun ids _ => ?_).congr (by simp)
        cases ids.head? with
        | some h => exact uses_ret _ c
        | none => exact hns
      have heth : ∀ x, (x : Outcome (Option HwId)) = tryStrategies (osAt v false).machine [0, -2] → v.sys.net.ifaddrs = none →
          ∀ h, x ≠ .ok (some h) := by
        rintro x rfl hi h hx
        rw [tryStrategies, show getStrategy 0 = .ok .ethernet from rfl] at hx
        simp only [Outcome.ok_bind, generateFirst] at hx
        rcases noAdapters hi (.inl rfl : (.ethernet : Strategy) = .ethernet ∨ (.ethernet : Strategy) = .ip) with h' | ⟨e, h'⟩
        · rw [h'] at hx
          simp [(hunknown []).2] at hx
        · simp [h'] at hx
      rw [show (Prog.ret (Outcome.ok e) >>= fun e => tryStrategiesP v (availableStrategies e)) = tryStrategiesP v (availableStrategies e) from rfl]
      unfold availableStrategies at hub ⊢
      have hcont : ∀ b : Bool, e.virtualization ≠ .none → ∃ q : Prop,
          UsesIff (tryStrategiesP v (if b = true then [-2] else [0, -2])) c
            (c = .logFile ∧ q ∨ c = .mntBuffer ∧ ListsDisks v.sys ∧ DiskStrategy v .default)
          ∧ (q → ∀ h, tryStrategies (osAt v false).machine (if b = true then [-2] else [0, -2]) ≠ .ok (some h)) := by
        intro b hne
        cases b with
        | true => exact ⟨False, (hunknown []).1.congr (by simp [DiskStrategy, he, hne]), fun h => h.elim⟩
        | false =>
          exact ⟨v.sys.net.ifaddrs = none, (hfirst 0 .ethernet [-2] rfl (hunknown []).1).congr (by simp [DiskStrategy, he, hne]), fun hi => heth _ rfl hi⟩
      cases hvirt : e.virtualization with
      | container => exact hcont e.isDocker (by simp [hvirt])
      | vm => exact hcont e.isCloud (by simp [hvirt])
      | none =>
        rw [hvirt] at hub
        dsimp only at hub ⊢
        refine ⟨False, (hfirst 2 .disk [4, -2] rfl (h4 _).1).congr ?_, fun h => h.elim⟩
        have : getDiskInfos v.sys.disks ≠ .ub := by
          intro h
          apply hub
          rw [tryStrategies, show getStrategy 2 = .ok .disk from rfl]
          simp [generateFirst, disks_ub h]
        simp [hlists this, DiskStrategy, he, hvirt]

theorem uses_identify {v : View} {c : Cell} {strategy : Int} {buf : Option Bytes} {size : Nat} (hv : Short v) (hc : c ≠ .tmBuffer)
    {res : IdentifyResult} (h : identifyPc v.sys.os.machine strategy buf size = .ok res) :
    UsesIff (identifyPcP v strategy buf size) c ((Call.identify v strategy buf size).Touches c) := by
  have hos : v.sys.os.machine = (osAt v false).machine := congrArg World.machine (short_world hv)
  have hnone : ¬ ((∃ mem, buf = some mem) ∧ 19 < size) → ¬ (Call.identify v strategy buf size).Touches c := by
    rintro hn (⟨_, h1, h2, _⟩ | ⟨_, h1, h2, _⟩ | ⟨_, h⟩)
    · exact hn ⟨h1, h2⟩
    · exact hn ⟨h1, h2⟩
    · exact h
  unfold identifyPcP
  cases buf with
  | none => exact (uses_ret _ c).congr (by simpa using hnone (by simp))
  | some mem =>
    dsimp only
    split
    · rename_i hsize
      have hres := h
      rw [hos] at h
      unfold identifyPc at h
      dsimp only at h
      rw [if_pos hsize] at h
      -- the strategy
      cases hn : selectStrategy (v.sys.getenv (b!"IDENTIFICATION_STRATEGY")) strategy with
      | mk n used =>
      have hstrat := (strategyUsed_iff _ _ _ _).mpr hn
      have hwarn : (osAt v false).machine.warnUnknown strategy = .ok () := by
        unfold Machine.warnUnknown
        split <;> rfl
      have hgen : generateUserPcSignature (osAt v false).machine strategy = (do
          let s ← getStrategy n
          match ← generatePcId (osAt v false).machine s with
          | none => .throw .logicError
          | some h => (h.setUseEnvVar used).print) := by
        unfold generateUserPcSignature
        rw [hwarn, Outcome.ok_bind, show (osAt v false).machine.strategyVar = v.sys.getenv (b!"IDENTIFICATION_STRATEGY") from rfl, hn]
        rfl
      have hub : generateUserPcSignature (osAt v false).machine strategy ≠ .ub := by
        intro hu
        rw [hu] at h
        simp at h
      have huser : ∃ q : Prop, UsesIff (generateUserPcSignatureP v strategy) c
          (c = .logFile ∧ (VariableUnknown (v.sys.getenv (b!"IDENTIFICATION_STRATEGY")) strategy ∨ q)
            ∨ c = .mntBuffer ∧ ListsDisks v.sys ∧ ∃ s, getStrategy n = .ok s ∧ DiskStrategy v s)
          ∧ (q → ∃ e, generateUserPcSignature (osAt v false).machine strategy = .throw e) := by
        have hw : UsesIff (warnUnknownP v strategy) c (c = .logFile
            ∧ VariableUnknown (v.sys.getenv (b!"IDENTIFICATION_STRATEGY")) strategy) := by
          rw [variableUnknown_iff]
          unfold warnUnknownP
          split
          · exact (uses_log hv hc).congr (by simp [*])
          · exact (uses_ret _ c).congr (by simp [*])
        have hwg : Gives (warnUnknownP v strategy) (.ok ()) := by
          unfold warnUnknownP
          split
          · exact (follows_log v).gives hv
          · exact gives_ret _
        unfold generateUserPcSignatureP
        rw [hn]
        cases hs : getStrategy n with
        | ub => 
          refine ⟨False, (uses_bind hwg hw (r := fun _ => False) fun _ _ =>
            (uses_bind (gives_ret _) (uses_ret _ c) (r := fun _ => False) fun _ hx => ?_).congr (by simp)).congr (by simp), fun h => h.elim⟩
          simp at hx
        | throw e => 
          refine ⟨False, (uses_bind hwg hw (r := fun _ => False) fun _ _ =>
            (uses_bind (gives_ret _) (uses_ret _ c) (r := fun _ => False) fun _ hx => ?_).congr (by simp)).congr (by simp), fun h => h.elim⟩
          simp at hx
        | ok st =>
          rw [hgen, hs, Outcome.ok_bind] at hub
          rw [hgen, hs, Outcome.ok_bind]
          have hub' : generatePcId (osAt v false).machine st ≠ .ub := by
            intro hu
            rw [hu] at hub
            simp at hub
          obtain ⟨q, hq, hq'⟩ := uses_generate hv hc st hub'
          refine ⟨q, (uses_bind hwg hw (r := fun _ => c = .logFile ∧ q ∨ c = .mntBuffer ∧ ListsDisks v.sys ∧ DiskStrategy v st)
            fun _ _ => ?_).congr ?_, fun hh => ?_⟩
          · refine (uses_bind (gives_ret _) (uses_ret _ c) (r := fun _ => c = .logFile ∧ q ∨ c = .mntBuffer ∧ ListsDisks v.sys ∧ DiskStrategy v st)
              fun s' hs' => ?_).congr (by simp)
            obtain rfl := Outcome.ok.inj hs'
            refine (uses_bind ((follows_generate v st).gives hv) hq (r := fun _ => False) fun r _ => ?_).congr (by simp)
            cases r <;> exact uses_ret _ c
          · simp only [Outcome.ok.injEq, exists_eq_left', exists_const]
            grind
          · cases hg : generatePcId (osAt v false).machine st with
            | ub => exact absurd hg hub'
            | throw e => exact ⟨e, by simp⟩
            | ok o => cases o with
              | none => exact ⟨_, rfl⟩
              | some x => exact absurd hg (hq' hh x)
      obtain ⟨q, hq, hq'⟩ := huser
      have hlog : ∀ e, generateUserPcSignature (osAt v false).machine strategy = .throw e →
          identifyPc v.sys.os.machine strategy (some mem) size = .ok ⟨false, size, some mem⟩ := by
        intro e he
        rw [hos]
        unfold identifyPc
        dsimp only
        rw [if_pos hsize, he]
        rfl
      have hfails : (∃ n mem', identifyPc v.sys.os.machine strategy (some mem) size = .ok ⟨false, n, mem'⟩)
          ↔ ∃ e, generateUserPcSignature (osAt v false).machine strategy = .throw e := by
        constructor
        · rintro ⟨n', mem', hh⟩
          cases hg : generateUserPcSignature (osAt v false).machine strategy with
          | ub => exact absurd hg hub
          | throw e => exact ⟨e, rfl⟩
          | ok id =>
            exfalso
            rw [hos] at hh
            unfold identifyPc at hh
            dsimp only at hh
            rw [if_pos hsize, hg] at hh
            dsimp only at hh
            split at hh <;> simp at hh
        · rintro ⟨e, he⟩
          exact ⟨_, _, hlog e he⟩
      refine (uses_andThen ((follows_user v strategy).gives hv) hq
        (r := c = .logFile ∧ ∃ e, generateUserPcSignature (osAt v false).machine strategy = .throw e) ?_).congr ?_
      · cases hg : generateUserPcSignature (osAt v false).machine strategy with
        | ub => exact absurd hg hub
        | throw e => exact (uses_logged hv hc _).congr (by simp)
        | ok id =>
          dsimp only
          cases mstrlcpy mem (id ++ [0]) size <;> exact (uses_ret _ c).congr (by simp)
      · unfold Call.Touches Call.Logs Call.ReadsFstab Call.Verifies
        dsimp only
        rw [hfails]
        have hdisk : (∃ s, getStrategy n = .ok s ∧ DiskStrategy v s) ↔ ∃ n used,
            StrategyUsed (v.sys.getenv (b!"IDENTIFICATION_STRATEGY")) strategy n used
            ∧ (n = 2 ∨ n = -1 ∧ ∃ e, execSummary v.sys.host = .ok e ∧ e.virtualization = .none) := by
          unfold DiskStrategy
          constructor
          · rintro ⟨s, hs, hd⟩
            refine ⟨n, used, hstrat, ?_⟩
            have := (getStrategy_code _ _).mp hs
            rcases hd with rfl | ⟨rfl, hd⟩
            · exact .inl this
            · exact .inr ⟨this, hd⟩
          · rintro ⟨n', used', hs, hd⟩
            rw [strategyUsed_iff, hn] at hs
            obtain ⟨rfl, rfl⟩ := Prod.mk.inj hs
            rcases hd with rfl | ⟨rfl, hd⟩
            · exact ⟨.disk, rfl, .inl rfl⟩
            · exact ⟨.default, rfl, .inr ⟨rfl, hd⟩⟩
        rw [← hdisk]
        constructor
        · rintro ((⟨h1, h2 | h2⟩ | ⟨h1, h2, h3⟩) | ⟨h1, h2⟩)
          · exact .inl ⟨h1, ⟨mem, rfl⟩, hsize, .inl h2⟩
          · exact .inl ⟨h1, ⟨mem, rfl⟩, hsize, .inr (hq' h2)⟩
          · exact .inr (.inl ⟨h1, ⟨mem, rfl⟩, hsize, h2, h3⟩)
          · exact .inl ⟨h1, ⟨mem, rfl⟩, hsize, .inr h2⟩
        · rintro (⟨h1, _, _, h2 | h2⟩ | ⟨h1, _, _, h2, h3⟩ | ⟨_, h⟩)
          · exact .inl (.inl ⟨h1, .inl h2⟩)
          · exact .inr ⟨h1, h2⟩
          · exact .inl (.inr ⟨h1, h2, h3⟩)
          · exact h.elim
    · rename_i hsize
      exact (uses_ret _ c).congr (by simpa using hnone (by simpa using hsize))

end Licensecc.Threads
