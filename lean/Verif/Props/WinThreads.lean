import Verif.Props.WinThreadsCells
/-!
# C69 on Windows: calls in several threads
-/
namespace Licensecc.Win.Threads
open Licensecc.Spec
open Licensecc.Threads (Prog Shared Cell Result Access Uses Writes unwritten Steps CanRace Disjoint canRace_iff disjoint_steps run_on only_one
  InForce judge_verdicts)

/-! ## What acquire_license does alone -/

theorem behaves_client {v : View} (hv : Fits v) {l : FullLicense} {r r' : Registry} {b : Bool}
    (h : checkClient v.sys.world l r = .ok (r', b)) :
    Behaves (checkClientP v l r) (checkClient v.sys.world l r) (∃ id, SMap.find? kClient l.limits = some id ∧ NoIdentifier id) := by
  unfold checkClientP
  unfold checkClient at h ⊢
  cases hk : SMap.find? kClient l.limits with
  | none => exact (behaves_ret _).congr rfl (by simp)
  | some id =>
    rw [hk] at h
    obtain ⟨ev, hev, h⟩ := Outcome.bind_eq_ok.mp h
    have hm : v.sys.world.machine = v.quiet.os.machine := (quiet_machine hv).symm
    rw [hm] at hev ⊢
    refine (behaves_bind (behaves_validate hv hev) (r := fun _ => False) fun ev _ =>
      (behaves_bind (behaves_ret _) (r := fun _ => False) fun _ _ => behaves_ret _).congr rfl (by simp)).congr rfl ?_
    simp

theorem behaves_limits {cfg : Config} {v : View} (hv : Fits v) {l : FullLicense} {r r' : Registry}
    {k k' : Nat} {b : Bool} (h : verifyLimits cfg v.sys.world l r k = .ok (r', k', b)) :
    Behaves (verifyLimitsP cfg v l r k) (verifyLimits cfg v.sys.world l r k) (InForce cfg v.sys.world l (v.sys.clock k)
      ∧ ∃ id, SMap.find? kClient l.limits = some id ∧ NoIdentifier id) := by
  have hcl : v.sys.world.clock = v.sys.clock := rfl
  unfold verifyLimitsP
  simp only [verifyLimits] at h ⊢
  unfold InForce
  rw [hcl] at h ⊢
  rw [quiet_world hv]
  by_cases hm : l.magic = cfg.magic
  · rw [if_pos hm] at h
    rw [if_pos hm, if_pos hm]
    obtain ⟨⟨r1, v1⟩, h1, h⟩ := Outcome.bind_eq_ok.mp h
    have e1 := checkExpiry_ok h1
    rw [h1]
    refine (behaves_bind (behaves_ret _) (r := fun x => x.2 = true ∧
      (∀ d, SMap.find? kBegin l.limits = some d → ∃ t, secondsFromEpoch v.sys.world.mktime d = .ok t ∧ t ≤ v.sys.clock k)
      ∧ ∃ id, SMap.find? kClient l.limits = some id ∧ NoIdentifier id) fun x hx => ?_).congr rfl ?_
    · obtain rfl := Outcome.ok.inj hx
      dsimp only at h ⊢
      cases v1 with
      | false => exact (behaves_ret _).congr rfl (by simp)
      | true =>
        rw [if_pos rfl] at h
        rw [if_pos rfl, if_pos rfl]
        obtain ⟨⟨r2, v2⟩, h2, h⟩ := Outcome.bind_eq_ok.mp h
        have e2 := checkBegin_ok h2
        rw [h2]
        refine (behaves_bind (behaves_ret _) (r := fun x => x.2 = true
          ∧ ∃ id, SMap.find? kClient l.limits = some id ∧ NoIdentifier id) fun x hx => ?_).congr rfl ?_
        · obtain rfl := Outcome.ok.inj hx
          dsimp only at h ⊢
          cases v2 with
          | false => exact (behaves_ret _).congr rfl (by simp)
          | true =>
            rw [if_pos rfl] at h
            rw [if_pos rfl, if_pos rfl]
            obtain ⟨⟨r3, v3⟩, h3, h⟩ := Outcome.bind_eq_ok.mp h
            exact (behaves_bind (behaves_client hv h3) (r := fun _ => False) fun _ _ => behaves_ret _).congr rfl (by simp)
        · simp [← e2]
    · simp [← e1, hm, and_assoc]
  · rw [if_neg hm] at h
    rw [if_neg hm, if_neg hm]
    exact (behaves_bind (behaves_ret _) (r := fun _ => False) fun _ _ => behaves_ret _).congr rfl (by simp [hm])

theorem behaves_judge {cfg : Config} {v : View} {caller : Option Caller} (hv : Fits v)
    {top : Nat} (ls : List FullLicense) (hclock : ∀ l ∈ ls, ∀ k < top, InForce cfg v.sys.world (withMagic caller l) (v.sys.clock k)
      ↔ InForce cfg v.sys.world (withMagic caller l) (v.sys.clock 0)) : ∀ {r r' : Registry} {k k' : Nat} {oks errs : List LicInfo},
    judgeLoop cfg v.sys.world caller r k ls = .ok (r', k', oks, errs) → k' ≤ top →
    Behaves (judgeLoopP cfg v caller r k ls) (judgeLoop cfg v.sys.world caller r k ls)
      (∃ l ∈ ls, v.sys.world.verify l.printForSign l.signature = .ok true
        ∧ InForce cfg v.sys.world (withMagic caller l) (v.sys.clock 0) ∧ ∃ id, SMap.find? kClient l.limits = some id ∧ NoIdentifier id) := by
  induction ls with
  | nil => intro r r' k k' oks errs h _; exact (behaves_ret _).congr rfl (by simp)
  | cons l ls ih =>
    intro r r' k k' oks errs h htop
    replace ih := @ih fun l hl => hclock l (List.mem_cons_of_mem _ hl)
    replace hclock := hclock l List.mem_cons_self
    rw [judgeLoop] at h ⊢
    rw [judgeLoopP, quiet_world hv]
    dsimp only at h ⊢
    obtain ⟨⟨r1, g⟩, h1, h⟩ := Outcome.bind_eq_ok.mp h
    obtain ⟨⟨i, k1⟩, h2, h⟩ := Outcome.bind_eq_ok.mp h
    have hver := verifySignature_ok h1
    rw [show (withMagic caller l).printForSign = l.printForSign from rfl, show (withMagic caller l).signature = l.signature from rfl] at hver
    let rest : Prop := ∃ l ∈ ls, v.sys.world.verify l.printForSign l.signature = .ok true
        ∧ InForce cfg v.sys.world (withMagic caller l) (v.sys.clock 0) ∧ ∃ id, SMap.find? kClient l.limits = some id ∧ NoIdentifier id
    rw [h1]
    refine (behaves_bind (behaves_ret _) (r := fun x => x.2 = true ∧ InForce cfg v.sys.world (withMagic caller l) (v.sys.clock 0)
      ∧ (∃ id, SMap.find? kClient l.limits = some id ∧ NoIdentifier id) ∨ rest) fun x hx => ?_).congr rfl ?_
    · obtain rfl := Outcome.ok.inj hx
      dsimp only
      rw [h2]
      refine (behaves_bind (behaves_ret _) (r := fun _ => g = true ∧ InForce cfg v.sys.world (withMagic caller l) (v.sys.clock 0)
        ∧ (∃ id, SMap.find? kClient l.limits = some id ∧ NoIdentifier id) ∨ rest) fun y hy => ?_).congr rfl (by simp)
      obtain rfl := Outcome.ok.inj hy
      dsimp only at h ⊢
      cases g with
      | true =>
        rw [if_pos rfl] at h
        rw [if_pos rfl, if_pos rfl]
        obtain ⟨⟨r2, k2, b⟩, h3, h⟩ := Outcome.bind_eq_ok.mp h
        obtain ⟨⟨r3, k3, oks', errs'⟩, h4, h⟩ := Outcome.bind_eq_ok.mp h
        have hl := behaves_limits hv h3
        have hk' : k3 = k' := by simp only [Outcome.pure_eq, Outcome.ok.injEq, Prod.mk.injEq] at h; exact h.2.1
        have hk2 : k2 ≤ k3 := judged_mono (judgeLoop_judged h4)
        have hk1 := (verifyLimits_ok h3).1
        rw [hclock _ (by omega)] at hl
        rw [h3] at hl ⊢
        refine (behaves_bind hl (r := fun _ => rest) fun z hz => ?_).congr rfl ?_
        · obtain rfl := Outcome.ok.inj hz
          refine (behaves_bind (ih h4 (by omega)) (r := fun _ => False) fun _ _ => behaves_ret _).congr rfl ?_
          simp [rest]
        · simp [show (withMagic caller l).limits = l.limits from rfl]
      | false =>
        rw [if_neg (by simp)] at h
        rw [if_neg (by simp), if_neg (by simp)]
        obtain ⟨⟨r3, k3, oks', errs'⟩, h4, h⟩ := Outcome.bind_eq_ok.mp h
        have hk' : k3 = k' := by simp only [Outcome.pure_eq, Outcome.ok.injEq, Prod.mk.injEq] at h; exact h.2.1
        refine (behaves_bind (ih h4 (by omega)) (r := fun _ => False) fun _ _ => behaves_ret _).congr rfl ?_
        simp [rest]
    · simp only [Outcome.ok.injEq, exists_eq_left', List.mem_cons, exists_eq_or_imp, hver]
      cases g <;> grind

theorem moduleName_none (v : View) : v.sys.world.moduleName = none ↔ v.sys.exe = none := by
  show getModuleName v.sys.exe = none ↔ _
  unfold getModuleName
  cases v.sys.exe <;> simp

theorem behaves_locations {v : View} (hv : Fits v) (l : Locator) (r : Registry) :
    Behaves (licenseLocationsP v l r) (licenseLocations v.sys.world l r) (l = .applicationFolder ∧ v.sys.exe = none) := by
  unfold licenseLocationsP
  rw [quiet_world hv]
  have hm := moduleName_none v
  cases hn : v.sys.world.moduleName with
  | none =>
    rw [hn] at hm
    have he := hm.mp rfl
    cases l with
    | applicationFolder => exact (behaves_logged hv _).congr rfl (by simp [he])
    | environmentVarLocation => exact (behaves_ret _).congr rfl (by simp)
    | environmentVarData => exact (behaves_ret _).congr rfl (by simp)
    | externalDefinition loc => exact (behaves_ret _).congr rfl (by simp)
  | some m =>
    rw [hn] at hm
    have he : v.sys.exe ≠ none := fun h => by simpa using hm.mpr h
    cases l <;> exact (behaves_ret _).congr rfl (by simp [he])

theorem behaves_locators {v : View} (hv : Fits v) (f : Bytes) (ls : List Locator) :
    ∀ {r r' : Registry} {lics : List FullLicense}, readLocators v.sys.world f r ls = .ok (r', lics) →
    Behaves (readLocatorsP v f r ls) (readLocators v.sys.world f r ls) (.applicationFolder ∈ ls ∧ v.sys.exe = none) := by
  induction ls with
  | nil => intro r r' lics _; exact (behaves_ret _).congr rfl (by simp)
  | cons l ls ih =>
    intro r r' lics h
    rw [readLocators] at h ⊢
    rw [readLocatorsP, quiet_world hv]
    obtain ⟨⟨r1, locs, b⟩, h1, h⟩ := Outcome.bind_eq_ok.mp h
    obtain ⟨⟨r2, lics1⟩, h2, h⟩ := Outcome.bind_eq_ok.mp h
    obtain ⟨⟨r3, lics2⟩, h3, h⟩ := Outcome.bind_eq_ok.mp h
    have hl := behaves_locations hv l r
    rw [h1] at hl ⊢
    refine (behaves_bind hl (r := fun _ => .applicationFolder ∈ ls ∧ v.sys.exe = none) fun x hx => ?_).congr rfl ?_
    · obtain rfl := Outcome.ok.inj hx
      dsimp only at h2 h3 ⊢
      rw [h2]
      refine (behaves_bind (behaves_ret _) (r := fun _ => .applicationFolder ∈ ls ∧ v.sys.exe = none)
        fun y hy => ?_).congr rfl (by simp)
      obtain rfl := Outcome.ok.inj hy
      exact (behaves_bind (ih h3) (r := fun _ => False) fun _ _ => behaves_ret _).congr rfl (by simp)
    · simp only [Outcome.ok.injEq, exists_eq_left', List.mem_cons]
      grind

theorem behaves_read {cfg : Config} {v : View} {hint : Option LicenseLocation} (hv : Fits v) {f : Bytes}
    {r : Registry} {lics : List FullLicense} (h : readLicenses cfg v.sys.world hint f = .ok (r, lics)) :
    Behaves (readLicensesP cfg v hint f) (readLicenses cfg v.sys.world hint f) (cfg.nearModule = true ∧ v.sys.exe = none) := by
  have hmem : .applicationFolder ∈ activeStrategies cfg hint ↔ cfg.nearModule = true := by
    rw [mem_activeStrategies]; simp
  unfold readLicensesP
  rw [quiet_world hv]
  dsimp only
  by_cases he : (activeStrategies cfg hint).isEmpty = true
  · rw [if_pos he]
    rw [List.isEmpty_iff] at he
    rw [he] at hmem
    simp only [List.not_mem_nil, false_iff] at hmem
    exact (behaves_ret _).congr rfl (by simp [hmem])
  · simp only [readLicenses] at h ⊢
    rw [if_neg he] at h
    rw [if_neg he, if_neg he]
    obtain ⟨⟨r1, lics1⟩, h1, h⟩ := Outcome.bind_eq_ok.mp h
    refine (behaves_bind (behaves_locators hv f _ h1) (r := fun _ => False) fun x _ => ?_).congr rfl
      (by simp [hmem])
    obtain ⟨r2, lics2⟩ := x
    dsimp only
    split
    · exact (behaves_bind (behaves_ret _) (r := fun _ => False) fun _ _ => behaves_ret _).congr rfl (by simp)
    · exact behaves_ret _

theorem behaves_acquire {cfg : Config} {v : View} {caller : Option Caller} {hint : Option LicenseLocation} {out : Option LicInfo}
    (hv : Fits v) (hclock : (Call.acquire cfg v caller hint out).Steady) {res : AcquireResult}
    (h : acquire cfg v.sys.world caller hint out = .ok res) :
    Behaves (acquireP cfg v caller hint out) (acquire cfg v.sys.world caller hint out)
      ((Call.acquire cfg v caller hint out).Logs) := by
  have hres := h
  unfold acquire at h
  obtain ⟨f, h1, h⟩ := Outcome.bind_eq_ok.mp h
  obtain ⟨⟨r, lics⟩, h2, h⟩ := Outcome.bind_eq_ok.mp h
  dsimp only at h
  have hf := featureOf_iff.mp h1
  -- the texts that are verified are the licences
  have hmem := mem_readLicenses h2
  have hver : ∀ g text, Verified cfg v caller hint g text ↔ g = f ∧ ∃ l ∈ lics, ∃ src, IsLicence f src text l
      ∧ Offers cfg v.sys.world hint src text := by
    intro g text
    unfold Verified
    constructor
    · rintro ⟨hg, ⟨src, ho⟩, hco⟩
      obtain rfl := featureIs_unique hg hf
      obtain ⟨l, hl, hi⟩ := licence_of_complete h2 ho hco
      exact ⟨rfl, l, hl, src, hi, ho⟩
    · rintro ⟨rfl, l, hl, src, hi, ho⟩
      exact ⟨hf, ⟨src, ho⟩, complete_of_licence hi⟩
  -- what is done with one licence
  have hmagic : ∀ l ∈ lics, (withMagic caller l).magic = magicOf caller := by
    intro l hl
    obtain ⟨src, text, _, hi⟩ := (hmem l).mp hl
    cases caller <;> simp [withMagic, magicOf, hi.magic]
  have hforce : ∀ l ∈ lics, ∀ src text, IsLicence f src text l → ∀ k, (InForce cfg v.sys.world (withMagic caller l) (v.sys.clock k)
      ↔ magicOf caller = cfg.magic ∧ NotExpired v.sys.world f text (v.sys.clock k) ∧ Started v.sys.world f text (v.sys.clock k)) := by
    intro l hl src text hi k
    unfold InForce NotExpired Started
    rw [hmagic l hl]
    simp only [show (withMagic caller l).limits = l.limits from rfl, hi.limits]
  have hsteady : ∀ l ∈ lics, ∀ k < res.ticks, InForce cfg v.sys.world (withMagic caller l) (v.sys.clock k)
      ↔ InForce cfg v.sys.world (withMagic caller l) (v.sys.clock 0) := by
    intro l hl k hk
    obtain ⟨src, text, ho, hi⟩ := (hmem l).mp hl
    rw [hforce l hl src text hi k, hforce l hl src text hi 0, hclock res hres f text ((hver f text).mpr ⟨rfl, l, hl, src, hi, ho⟩) k hk]
  have hchecked : (∃ id, HardwareChecked cfg v caller hint id ∧ NoIdentifier id) ↔
      ∃ l ∈ lics, v.sys.world.verify l.printForSign l.signature = .ok true
      ∧ InForce cfg v.sys.world (withMagic caller l) (v.sys.clock 0) ∧ ∃ id, SMap.find? kClient l.limits = some id ∧ NoIdentifier id := by
    unfold HardwareChecked
    constructor
    · rintro ⟨id, ⟨g, text, hvf, hs, hm, he, hb, hid⟩, hno⟩
      obtain ⟨rfl, l, hl, src, hi, ho⟩ := (hver g text).mp hvf
      rw [signed_iff hi] at hs
      exact ⟨l, hl, hs, (hforce l hl src text hi 0).mpr ⟨hm, he, hb⟩, id, (hi.limits _ _).mpr hid, hno⟩
    · rintro ⟨l, hl, hs, hin, id, hid, hno⟩
      obtain ⟨src, text, ho, hi⟩ := (hmem l).mp hl
      obtain ⟨hm, he, hb⟩ := (hforce l hl src text hi 0).mp hin
      refine ⟨id, ⟨f, text, (hver f text).mpr ⟨rfl, l, hl, src, hi, ho⟩, ?_, hm, he, hb, (hi.limits _ _).mp hid⟩, hno⟩
      rw [signed_iff hi]; exact hs
  show Behaves _ _ (_ ∨ _)
  rw [hchecked]
  unfold acquireP acquire
  rw [h1, quiet_world hv]
  refine (behaves_bind (behaves_ret _) (r := fun _ => (cfg.nearModule = true ∧ v.sys.exe = none)
    ∨ ∃ l ∈ lics, v.sys.world.verify l.printForSign l.signature = .ok true
      ∧ InForce cfg v.sys.world (withMagic caller l) (v.sys.clock 0) ∧ ∃ id, SMap.find? kClient l.limits = some id ∧ NoIdentifier id)
    fun g hg => ?_).congr rfl (by simp)
  obtain rfl := Outcome.ok.inj hg
  have hread := behaves_read hv h2
  rw [h2] at hread ⊢
  refine (behaves_bind hread (r := fun _ => ∃ l ∈ lics, v.sys.world.verify l.printForSign l.signature = .ok true
      ∧ InForce cfg v.sys.world (withMagic caller l) (v.sys.clock 0) ∧ ∃ id, SMap.find? kClient l.limits = some id ∧ NoIdentifier id)
    fun x hx => ?_).congr rfl (by simp)
  obtain rfl := Outcome.ok.inj hx
  dsimp only
  cases lics with
  | nil => exact (behaves_ret _).congr rfl (by simp)
  | cons l ls =>
    unfold judge at h ⊢
    dsimp only at h ⊢
    obtain ⟨⟨r', k', oks, errs⟩, h3, h⟩ := Outcome.bind_eq_ok.mp h
    have hticks : k' ≤ res.ticks := by
      dsimp only at h
      cases oks with
      | cons o oks => have := finish_ok h; omega
      | nil =>
        obtain ⟨x, _, h⟩ := Outcome.bind_eq_ok.mp h
        obtain ⟨y, _, h⟩ := Outcome.bind_eq_ok.mp h
        have := finish_ok h; omega
    refine (behaves_bind (behaves_judge hv _ hsteady h3 hticks) (r := fun _ => False) fun x _ => ?_).congr rfl (by simp)
    obtain ⟨r2, k2, oks2, errs2⟩ := x
    unfold conclude
    rw [quiet_world hv]
    cases oks2 <;> exact behaves_ret _

/-! ## Threads -/

theorem behaves_call {c : Call} (hc : c.Works) : Behaves c.prog c.alone c.Logs := by
  obtain ⟨⟨r, hr⟩, hv, hclock⟩ := hc
  cases c with
  | acquire cfg v caller hint out =>
    obtain ⟨res, h, _⟩ := Outcome.bind_eq_ok.mp hr
    exact (behaves_bind (behaves_acquire (v := v) hv hclock h) (r := fun _ => False) fun _ _ => behaves_ret _).congr rfl (by simp)
  | identify v strategy buf size =>
    obtain ⟨res, h, _⟩ := Outcome.bind_eq_ok.mp hr
    exact (behaves_bind (behaves_identify (v := v) hv h) (r := fun _ => False) fun _ _ => behaves_ret _).congr rfl (by simp)

/-- The calls of a thread, each alone. -/
def aloneAll : List Call → Outcome (List Result)
  | [] => .ok []
  | c :: cs => do return (← c.alone) :: (← aloneAll cs)

theorem behaves_thread (cs : List Call) (h : ∀ c ∈ cs, c.Works) : Behaves (threadP cs) (aloneAll cs) (∃ c ∈ cs, c.Logs) := by
  induction cs with
  | nil => exact (behaves_ret _).congr rfl (by simp)
  | cons c cs ih =>
    obtain ⟨r, hr⟩ := (h c (by simp)).returns
    rw [threadP, aloneAll]
    refine (behaves_bind (behaves_call (h c (by simp))) (r := fun _ => ∃ c ∈ cs, c.Logs) fun r _ =>
      (behaves_bind (ih fun c hc => h c (by simp [hc])) (r := fun _ => False) fun _ _ => behaves_ret _).congr rfl (by simp)).congr rfl ?_
    rw [hr]
    simp

theorem aloneAll_ok (cs : List Call) (h : ∀ c ∈ cs, c.Works) : ∃ rs, aloneAll cs = .ok rs ∧ cs.map Call.alone = rs.map .ok := by
  induction cs with
  | nil => exact ⟨[], rfl, rfl⟩
  | cons c cs ih =>
    obtain ⟨r, hr⟩ := (h c (by simp)).returns
    obtain ⟨rs, h1, h2⟩ := ih fun c hc => h c (by simp [hc])
    exact ⟨r :: rs, by simp [aloneAll, hr, h1], by simp [hr, h2]⟩

/-- **C69** on Windows: threads that call the library, each call working on its own, can race in exactly one way: two of them write to the
    log, and the log file is not open yet. -/
theorem C69_windows_race_iff (s : Shared) (ts : Nat → List Call) (hw : ∀ i, ∀ c ∈ ts i, c.Works) :
    CanRace s (fun i => threadP (ts i)) ↔ s .logFile = none ∧ TwoLog ts := by
  have hb := fun i => behaves_thread (ts i) (hw i)
  rw [canRace_iff]
  unfold Disjoint
  simp only [Classical.not_forall, Classical.not_not]
  constructor
  · rintro ⟨i, j, hij, a, ha, b, hb', hc, hwr⟩
    have h1 := (hb i).only s a ha
    have h2 := (hb j).only s b hb'
    refine ⟨Classical.byContradiction fun hs => ?_, i, j, hij, ((hb i).uses s).mp ⟨a, ha, h1⟩, ((hb j).uses s).mp ⟨b, hb', h2⟩⟩
    rcases hwr with hwr | hwr
    · refine (hb i).reads s hs ?_
      have : a = ⟨.logFile, true⟩ := by cases a; simp_all
      rw [this] at ha; exact ha
    · refine (hb j).reads s hs ?_
      have : b = ⟨.logFile, true⟩ := by cases b; simp_all
      rw [this] at hb'; exact hb'
  · rintro ⟨hs, i, j, hij, hi, hj⟩
    exact ⟨i, j, hij, _, (hb i).opens s hs hi, _, (hb j).opens s hs hj, rfl, .inl rfl⟩

/-- **C69** on Windows: threads that cannot race do not disturb each other: whatever the order of their steps, every thread that has finished
    has the results its calls give when they are made alone, and every thread can go on and finish. -/
theorem C69_windows_results (s : Shared) (ts : Nat → List Call) (hw : ∀ i, ∀ c ∈ ts i, c.Works)
    (hr : ¬ CanRace s (fun i => threadP (ts i))) {s' : Shared} {ps : Nat → Prog (List Result)}
    (h : Steps s (fun i => threadP (ts i)) s' ps) (i : Nat) :
    (∀ o, ps i = .ret o → ∃ rs, o = .ok rs ∧ (ts i).map Call.alone = rs.map .ok)
    ∧ ∃ s'' ps' rs, Steps s' ps s'' ps' ∧ ps' i = .ret (.ok rs) := by
  have hd : Disjoint s (fun i => threadP (ts i)) := Classical.byContradiction fun hn => hr ((canRace_iff _ _).mpr hn)
  obtain ⟨rs, h1, h2⟩ := aloneAll_ok (ts i) (hw i)
  have hres : (ps i).result s' = .ok rs := by
    rw [(disjoint_steps h hd).2 i, (behaves_thread (ts i) (hw i)).result s, h1]
  refine ⟨fun o ho => ⟨rs, ?_, h2⟩, ?_⟩
  · rw [ho] at hres; exact hres
  · exact ⟨_, _, rs, run_on i (ps i) s' ps rfl, by simp [hres]⟩

/-! ## Any call, whether it works or not -/

open Licensecc.Threads (Gives gives_ret)

theorem gives_andThen {α β : Type} {p : Prog α} {f : Outcome α → Prog β} {o : Outcome α} {o' : Outcome β} (hp : Gives p o)
    (hf : Gives (f o) o') : Gives (p.andThen f) o' := by
  intro s
  rw [Licensecc.Threads.result_andThen, hp, hf]

theorem gives_bind {α β : Type} {p : Prog α} {f : α → Prog β} {o : Outcome α} {g : α → Outcome β} (hp : Gives p o)
    (hf : ∀ a, Gives (f a) (g a)) : Gives (p >>= f) (o >>= g) := by
  rw [Licensecc.Threads.bind_def]
  refine gives_andThen hp ?_
  cases o with
  | ok a => exact hf a
  | throw e => exact gives_ret _
  | ub => exact gives_ret _

theorem gives_logged {α : Type} {v : View} (hv : Fits v) (o : Outcome α) : Gives (do logP v; .ret o) o := (behaves_logged hv o).result

theorem gives_validate {v : View} (hv : Fits v) (code : Bytes) :
    Gives (validatePcSignatureP v code) (validatePcSignature v.sys.os.machine code) := by
  rw [← quiet_machine hv]
  unfold validatePcSignatureP validatePcSignature
  dsimp only
  generalize (do
      let h ← HwId.ofString code
      let s ← getStrategy h.strategy
      validateIdentifier v.quiet.os.machine s h : Outcome EventType) = o
  cases o with
  | ok a => exact gives_ret _
  | ub => exact gives_ret _
  | throw e =>
    dsimp only
    split
    · rw [logged_eq (quiet_log v)]
      exact gives_logged hv _
    · exact gives_ret _

theorem gives_identify {v : View} (hv : Fits v) (strategy : Int) (buf : Option Bytes) (size : Nat) :
    Gives (identifyPcP v strategy buf size) (identifyPc v.sys.os.machine strategy buf size) := by
  rw [← quiet_machine hv]
  have hw : Gives (warnUnknownP v strategy) (v.quiet.os.machine.warnUnknown strategy) := by
    unfold warnUnknownP Machine.warnUnknown
    rw [show v.quiet.os.machine.strategyVar = v.sys.getenv (b!"IDENTIFICATION_STRATEGY") from rfl]
    split
    · rw [logged_eq (quiet_log v)]
      exact (behaves_log hv).result
    · exact gives_ret _
  have huser : Gives (generateUserPcSignatureP v strategy) (generateUserPcSignature v.quiet.os.machine strategy) := by
    unfold generateUserPcSignatureP generateUserPcSignature
    refine gives_bind hw fun _ => gives_bind (gives_ret _) fun st => gives_bind (gives_ret _) fun r => ?_
    cases r <;> exact gives_ret _
  unfold identifyPcP identifyPc
  cases buf with
  | none => exact gives_ret _
  | some mem =>
    dsimp only
    split
    · refine gives_andThen huser ?_
      cases generateUserPcSignature v.quiet.os.machine strategy with
      | ub => exact gives_ret _
      | throw e =>
        dsimp only
        rw [logged_eq (quiet_log v)]
        exact gives_logged hv _
      | ok id =>
        dsimp only
        cases mstrlcpy mem (id ++ [0]) size <;> exact gives_ret _
    · exact gives_ret _

theorem gives_limits {cfg : Config} {v : View} (hv : Fits v) (l : FullLicense) (r : Registry) (k : Nat) :
    Gives (verifyLimitsP cfg v l r k) (verifyLimits cfg v.sys.world l r k) := by
  unfold verifyLimitsP verifyLimits
  rw [quiet_world hv]
  dsimp only
  split
  · refine gives_bind (gives_ret _) fun x => ?_
    split
    · refine gives_bind (gives_ret _) fun y => ?_
      split
      · refine gives_bind ?_ fun z => gives_ret _
        unfold checkClientP checkClient
        cases SMap.find? kClient l.limits with
        | none => exact gives_ret _
        | some s => exact gives_bind (gives_validate hv _) fun ev => gives_bind (gives_ret _) fun _ => gives_ret _
      · exact gives_ret _
    · exact gives_ret _
  · exact gives_bind (gives_ret _) fun _ => gives_ret _

theorem gives_judge {cfg : Config} {v : View} {caller : Option Caller} (hv : Fits v) (ls : List FullLicense) : ∀ r k,
    Gives (judgeLoopP cfg v caller r k ls) (judgeLoop cfg v.sys.world caller r k ls) := by
  induction ls with
  | nil => intro r k; exact gives_ret _
  | cons l ls ih =>
    intro r k
    unfold judgeLoopP judgeLoop
    rw [quiet_world hv]
    refine gives_bind (gives_ret _) fun x => gives_bind (gives_ret _) fun y => ?_
    dsimp only
    split
    · exact gives_bind (gives_limits hv _ _ _) fun z => gives_bind (ih _ _) fun _ => gives_ret _
    · exact gives_bind (ih _ _) fun _ => gives_ret _

theorem gives_locators {v : View} (hv : Fits v) (f : Bytes) (ls : List Locator) : ∀ r,
    Gives (readLocatorsP v f r ls) (readLocators v.sys.world f r ls) := by
  induction ls with
  | nil => intro r; exact gives_ret _
  | cons l ls ih =>
    intro r
    unfold readLocatorsP readLocators
    rw [quiet_world hv]
    exact gives_bind (behaves_locations hv l r).result fun x => gives_bind (gives_ret _) fun y => gives_bind (ih _) fun z => gives_ret _

theorem gives_acquire {cfg : Config} {v : View} {caller : Option Caller} {hint : Option LicenseLocation} {out : Option LicInfo} (hv : Fits v) :
    Gives (acquireP cfg v caller hint out) (acquire cfg v.sys.world caller hint out) := by
  have hread : ∀ f, Gives (readLicensesP cfg v hint f) (readLicenses cfg v.sys.world hint f) := by
    intro f
    unfold readLicensesP
    rw [quiet_world hv]
    dsimp only
    split
    · exact gives_ret _
    · rename_i he
      simp only [readLicenses]
      rw [if_neg he]
      refine gives_bind (gives_locators hv f _ _) fun x => ?_
      split
      · exact gives_bind (gives_ret _) fun _ => gives_ret _
      · exact gives_ret _
  unfold acquireP acquire
  rw [quiet_world hv]
  refine gives_bind (gives_ret _) fun f => gives_bind (hread f) fun x => ?_
  obtain ⟨r, lics⟩ := x
  cases lics with
  | nil => exact gives_ret _
  | cons l ls =>
    dsimp only
    unfold judge
    dsimp only
    refine gives_bind (gives_judge hv _ _ _) fun y => ?_
    obtain ⟨r, k, oks, errs⟩ := y
    unfold conclude
    rw [quiet_world hv]
    cases oks <;> exact gives_ret _

theorem gives_call {c : Call} (hc : c.LogFits) : Gives c.prog c.alone := by
  cases c with
  | acquire cfg v caller hint out => exact gives_bind (gives_acquire hc) fun _ => gives_ret _
  | identify v strategy buf size => exact gives_bind (gives_identify hc strategy buf size) fun _ => gives_ret _

theorem gives_thread (cs : List Call) (h : ∀ c ∈ cs, c.LogFits) : Gives (threadP cs) (aloneAll cs) := by
  induction cs with
  | nil => exact gives_ret _
  | cons c cs ih =>
    rw [threadP, aloneAll]
    exact gives_bind (gives_call (h c (by simp))) fun _ => gives_bind (ih fun c hc => h c (by simp [hc])) fun _ => gives_ret _

theorem aloneAll_append {before : List Call} {bs : List Result} (h : before.map Call.alone = bs.map .ok) (c : Call) :
    aloneAll (before ++ [c]) = (do return bs ++ [← c.alone]) := by
  induction before generalizing bs with
  | nil =>
    cases bs with
    | nil => cases hc : c.alone <;> simp [aloneAll, hc]
    | cons b bs => simp at h
  | cons a before ih =>
    cases bs with
    | nil => simp at h
    | cons b bs =>
      simp only [List.map_cons, List.cons.injEq] at h
      rw [List.cons_append, aloneAll, h.1, ih h.2]
      cases hc : c.alone <;> simp

/-- **C86** on Windows: after any calls that returned, made with any surroundings, a call ends as it ends alone in a fresh process: with the
    same result, the same exception or the same undefined behaviour.  It can always go on to its end. -/
theorem C86_windows (s : Shared) (before : List Call) (bs : List Result) (c : Call) (hlog : ∀ x ∈ before ++ [c], x.LogFits)
    (hb : before.map Call.alone = bs.map .ok) (ts : Nat → Prog (List Result)) (i : Nat) (hi : ts i = threadP (before ++ [c]))
    (ho : ∀ j, j ≠ i → ∃ o, ts j = .ret o) :
    (∃ s' ts' o, Steps s ts s' ts' ∧ ts' i = .ret o)
    ∧ ∀ s' ts' o, Steps s ts s' ts' → ts' i = .ret o →
      (∀ r, c.alone = .ok r → o = .ok (bs ++ [r])) ∧ (∀ e, c.alone = .throw e → o = .throw e) ∧ (c.alone = .ub → o = .ub) := by
  have hres : (threadP (before ++ [c])).result s = aloneAll (before ++ [c]) := gives_thread _ hlog s
  refine ⟨⟨_, _, _, run_on i _ s ts hi, by simp; rfl⟩, fun s' ts' o h hd => ?_⟩
  have := (only_one h ho).2.1
  rw [hd, hi, hres, aloneAll_append hb] at this
  change o = _ at this
  subst this
  refine ⟨fun r hr => ?_, fun e he => ?_, fun hu => ?_⟩
  · rw [hr]; rfl
  · rw [he]; rfl
  · rw [hu]; rfl

/-! ## Samples -/

/-- identify_pc with a strategy that does not exist; `opens` says whether the log file can be opened. -/
def badCall (opens : Bool) : Call := .identify ⟨sampleWindows, fun _ => opens⟩ 7 (some (List.replicate 20 0)) 20

/-- acquire_license with a licence bound to drive C:. -/
def boundCall : Call := .acquire sampleConfig ⟨sampleWindows, fun _ => true⟩ (some sampleCaller) none none

/-- Two threads make one call each. -/
def twoThreads (c d : Call) : Nat → List Call
  | 0 => [c]
  | 1 => [d]
  | _ => []

/-- **C69** on Windows: of two threads that log their first message one can crash if the other cannot open the log file, though each call
    alone returns `false`. -/
theorem C69_windows_log_crash :
    ∃ s' ps, Steps Licensecc.Threads.noShared (fun i => threadP (twoThreads (badCall true) (badCall false) i)) s' ps
    ∧ (∀ b, (badCall b).alone = .ok (.identified ⟨false, 20, some (List.replicate 20 0)⟩))
    ∧ ps 0 = .ret .ub := by
  refine ⟨_, _, Licensecc.Threads.steps_schedule [1, 0, 0, 0, 1, 0] _ _, by decide +kernel, ?_⟩
  rw [← Licensecc.Threads.returned_iff]
  decide +kernel

theorem badCall_works (b : Bool) : (badCall b).Works where
  returns := ⟨.identified ⟨false, 20, some (List.replicate 20 0)⟩, by cases b <;> decide +kernel⟩
  fits := ⟨_, rfl, by decide⟩
  clock := by cases b <;> trivial

theorem boundCall_works : boundCall.Works where
  returns := by
    have h : (match boundCall.alone with | .ok _ => true | _ => false) = true := by decide +kernel
    cases hc : boundCall.alone with
    | ok r => exact ⟨r, rfl⟩
    | throw e => rw [hc] at h; simp at h
    | ub => rw [hc] at h; simp at h
  fits := ⟨_, rfl, by decide⟩
  clock := fun _ _ _ _ _ _ _ => Iff.rfl

theorem twoThreads_works {c d : Call} (hc : c.Works) (hd : d.Works) : ∀ i, ∀ x ∈ twoThreads c d i, x.Works := by
  intro i x hx
  unfold twoThreads at hx
  split at hx <;> simp at hx
  · rw [hx]; exact hc
  · rw [hx]; exact hd

theorem badCall_logs (b : Bool) : (badCall b).Logs :=
  ⟨⟨_, rfl⟩, by decide, .inr ⟨20, some (List.replicate 20 0), by cases b <;> decide +kernel⟩⟩

/-- The licensed call does not log. -/
theorem boundCall_silent : ¬ boundCall.Logs := by
  rw [← (behaves_call boundCall_works).uses Licensecc.Threads.noShared]
  unfold Uses
  rw [show boundCall.prog.trace Licensecc.Threads.noShared = [] by decide +kernel]
  simp

/-- A race, when the log file is not open; none, when it is, or when the threads only check licences. -/
example : CanRace Licensecc.Threads.noShared (fun i => threadP (twoThreads (badCall true) (badCall false) i)) :=
  (C69_windows_race_iff _ _ (twoThreads_works (badCall_works _) (badCall_works _))).mpr
    ⟨rfl, 0, 1, by decide, ⟨_, List.mem_singleton.mpr rfl, badCall_logs _⟩, ⟨_, List.mem_singleton.mpr rfl, badCall_logs _⟩⟩

example : ¬ CanRace (fun _ => some []) (fun i => threadP (twoThreads (badCall true) (badCall false) i)) := fun h =>
  nomatch ((C69_windows_race_iff _ _ (twoThreads_works (badCall_works _) (badCall_works _))).mp h).1

example : ¬ CanRace Licensecc.Threads.noShared (fun _ => threadP [boundCall]) := fun h => by
  obtain ⟨_, i, j, _, ⟨c, hc, hl⟩, _⟩ := (C69_windows_race_iff _ (fun _ => [boundCall]) (fun i c hc => by
    rw [List.mem_singleton.mp hc]; exact boundCall_works)).mp h
  rw [List.mem_singleton.mp hc] at hl
  exact boundCall_silent hl

/-- The hypotheses of `C86_windows`: a refused and a licensed call before. -/
example (c : Call) (hc : c.LogFits) : ∃ bs : List Result, [badCall true, boundCall].map Call.alone = bs.map .ok
    ∧ ∀ x ∈ [badCall true, boundCall] ++ [c], x.LogFits := by
  obtain ⟨r1, h1⟩ := (badCall_works true).returns
  obtain ⟨r2, h2⟩ := boundCall_works.returns
  refine ⟨[r1, r2], by simp [h1, h2], fun x hx => ?_⟩
  simp at hx
  rcases hx with rfl | rfl | rfl
  · exact (badCall_works true).fits
  · exact boundCall_works.fits
  · exact hc

end Licensecc.Win.Threads
