import Verif.Props.ThreadsUses
/-!
# C69: calls in several threads
-/
namespace Licensecc.Threads
open Licensecc.Spec

/-! ## Who writes -/

/-- A program writes to a cell. -/
def Writes {α : Type} (p : Prog α) (s : Shared) (c : Cell) : Prop := ⟨c, true⟩ ∈ p.trace s

theorem unwritten {α : Type} (p : Prog α) (c : Cell) : ∀ s, ¬ Writes p s c → p.final s c = s c := by
  induction p with
  | ret o => intro s _; rfl
  | read d k ih => intro s h; exact ih _ s (fun hw => h (by unfold Writes at hw ⊢; simp [Prog.trace, hw]))
  | write d x p ih =>
    intro s h
    have h1 := ih (s.set d x) (fun hw => h (by unfold Writes at hw ⊢; simp [Prog.trace, hw]))
    have hne : c ≠ d := fun hc => h (by unfold Writes; simp [Prog.trace, hc])
    rw [Prog.final, h1, Shared.set_other _ _ hne]

theorem Writes.uses {α : Type} {p : Prog α} {s : Shared} {c : Cell} (h : Writes p s c) : Uses p s c := ⟨_, h, rfl⟩

/-- Accesses come with writes. -/
structure Orderly {α : Type} (p : Prog α) : Prop where
  mnt : ∀ s, Uses p s .mntBuffer → Writes p s .mntBuffer
  tm : ∀ s, Uses p s .tmBuffer → Uses p s .logFile
  opened : ∀ s, s .logFile = none → Uses p s .logFile → Writes p s .logFile
  logged : ∀ s, s .logFile ≠ none → Uses p s .logFile → Writes p s .tmBuffer
  initialized : ∀ s, s .sslInitialized ≠ none → ¬ Writes p s .sslInitialized
  initializes : ∀ s, s .sslInitialized = none → Uses p s .sslInitialized → Writes p s .sslInitialized
  stays : ∀ s, Writes p s .sslInitialized → p.final s .sslInitialized ≠ none

theorem uses_append {α β : Type} (p : Prog α) (f : Outcome α → Prog β) (s : Shared) (c : Cell) :
    Uses (p.andThen f) s c ↔ Uses p s c ∨ Uses (f (p.result s)) (p.final s) c := by
  unfold Uses
  rw [trace_andThen]
  simp only [List.mem_append, or_and_right, exists_or]

theorem writes_append {α β : Type} (p : Prog α) (f : Outcome α → Prog β) (s : Shared) (c : Cell) :
    Writes (p.andThen f) s c ↔ Writes p s c ∨ Writes (f (p.result s)) (p.final s) c := by
  unfold Writes
  rw [trace_andThen]
  simp only [List.mem_append]

theorem orderly_ret {α : Type} (o : Outcome α) : Orderly (.ret o) := by
  constructor <;> intro s <;> simp [Uses, Writes, Prog.trace]

theorem orderly_andThen {α β : Type} {p : Prog α} {f : Outcome α → Prog β} (hp : Orderly p) (hf : ∀ o, Orderly (f o)) :
    Orderly (p.andThen f) := by
  constructor
  · intro s h
    rw [writes_append]
    rcases (uses_append p f s _).mp h with h | h
    · exact .inl (hp.mnt s h)
    · exact .inr ((hf _).mnt _ h)
  · intro s h
    rw [uses_append]
    rcases (uses_append p f s _).mp h with h | h
    · exact .inl (hp.tm s h)
    · exact .inr ((hf _).tm _ h)
  · intro s hs h
    rw [writes_append]
    by_cases hu : Uses p s .logFile
    · exact .inl (hp.opened s hs hu)
    · have hsame := unwritten p .logFile s (fun hw => hu hw.uses)
      rcases (uses_append p f s _).mp h with h | h
      · exact absurd h hu
      · exact .inr ((hf _).opened _ (by rw [hsame, hs]) h)
  · intro s hs h
    rw [writes_append]
    by_cases hu : Uses p s .logFile
    · exact .inl (hp.logged s hs hu)
    · have hsame := unwritten p .logFile s (fun hw => hu hw.uses)
      rcases (uses_append p f s _).mp h with h | h
      · exact absurd h hu
      · exact .inr ((hf _).logged _ (by rw [hsame]; exact hs) h)
  · intro s hs h
    rcases (writes_append p f s _).mp h with h | h
    · exact hp.initialized s hs h
    · have hsame := unwritten p .sslInitialized s (hp.initialized s hs)
      exact (hf _).initialized _ (by rw [hsame]; exact hs) h
  · intro s hs h
    rw [writes_append]
    by_cases hu : Uses p s .sslInitialized
    · exact .inl (hp.initializes s hs hu)
    · have hsame := unwritten p .sslInitialized s (fun hw => hu hw.uses)
      rcases (uses_append p f s _).mp h with h | h
      · exact absurd h hu
      · exact .inr ((hf _).initializes _ (by rw [hsame, hs]) h)
  · intro s h
    rw [final_andThen]
    by_cases hu : Writes (f (p.result s)) (p.final s) .sslInitialized
    · exact (hf _).stays _ hu
    · rcases (writes_append p f s _).mp h with h | h
      · rw [unwritten _ _ _ hu]; exact hp.stays s h
      · exact absurd h hu

theorem orderly_bind {α β : Type} {p : Prog α} {f : α → Prog β} (hp : Orderly p) (hf : ∀ a, Orderly (f a)) : Orderly (p >>= f) := by
  rw [bind_def]
  refine orderly_andThen hp fun o => ?_
  cases o with
  | ok a => exact hf a
  | throw e => exact orderly_ret _
  | ub => exact orderly_ret _

theorem orderly_log {v : View} (hv : Short v) : Orderly (logP v) := by
  have hub : Logger.getLogFname (v.sys.getenv (b!"TMPDIR")) ≠ .ub := by
    intro h
    have h0 := ov_short hv (fun _ => none)
    unfold ov Logger.overruns at h0
    simp [h] at h0
  have hnt : ∀ e, Logger.getLogFname (v.sys.getenv (b!"TMPDIR")) ≠ .throw e := by
    intro e hg
    unfold Logger.getLogFname Logger.strncat at hg
    split at hg
    · simp at hg
    · dsimp only at hg
      split at hg <;> simp at hg
  cases hg : Logger.getLogFname (v.sys.getenv (b!"TMPDIR")) with
  | ub => exact absurd hg hub
  | throw e => exact absurd hg (hnt e)
  | ok p =>
    constructor <;> intro s <;>
    · cases hl : s .logFile with
      | some q =>
        simp [Uses, Writes, logP, logBody, Prog.trace, hl, Shared.set]
      | none =>
        cases ho : v.opens p <;>
        simp [Uses, Writes, logP, logBody, Prog.trace, hl, hg, ho, Shared.set]

theorem orderly_initialize : Orderly initializeP := by
  constructor <;> intro s <;>
  · cases hs : s .sslInitialized <;> simp [Uses, Writes, initializeP, Prog.trace, Prog.final, Shared.set, hs]

theorem orderly_verify {v : View} (hv : Short v) (d sg : Bytes) : Orderly (verifyP v d sg) := by
  unfold verifyP
  refine orderly_bind orderly_initialize fun _ => orderly_bind (orderly_ret _) fun g => ?_
  cases g
  · exact orderly_bind (orderly_log hv) fun _ => orderly_ret _
  · exact orderly_ret _

/-- A program that accesses one cell of `getmntent` and begins by writing to it. -/
theorem orderly_mnt {α : Type} {p : Prog α} (h : ∀ s, ∀ a ∈ p.trace s, a.cell = .mntBuffer) (hw : ∀ s, Writes p s .mntBuffer) : Orderly p := by
  have hno : ∀ s c, c ≠ .mntBuffer → ¬ Uses p s c := by
    rintro s c hc ⟨a, ha, rfl⟩
    exact hc (h s a ha)
  exact ⟨fun s _ => hw s, fun s h => absurd h (hno s _ (by simp)), fun s _ h => absurd h (hno s _ (by simp)),
    fun s _ h => absurd h (hno s _ (by simp)), fun s _ h => absurd h.uses (hno s _ (by simp)), fun s _ h => absurd h (hno s _ (by simp)),
    fun s h => absurd h.uses (hno s _ (by simp))⟩

theorem orderly_entries (m : UuidMap) (es : List Bytes) : ∀ ds, Orderly (entriesP m es ds) := by
  induction es with
  | nil => intro ds; refine orderly_mnt ?_ ?_ <;> intro s <;> simp [entriesP, Prog.trace, Writes]
  | cons e es ih =>
    intro ds
    rw [entriesP]
    refine orderly_bind (orderly_mnt (fun s => ?_) (fun s => ?_)) ih
    · unfold entryP
      simp only [Prog.trace, Shared.set_same, Option.getD_some]
      repeat' split
      all_goals (simp only [Prog.trace, Shared.set_same, Option.getD_some]; try split)
      all_goals (try split)
      all_goals simp [Prog.trace]
    · simp [entryP, Writes, Prog.trace]

theorem orderly_disks (h : DiskHost) : Orderly (getDiskInfosP h) := by
  unfold getDiskInfosP
  refine orderly_bind (orderly_ret _) fun x => ?_
  obtain ⟨r, ds, m⟩ := x
  dsimp only
  split
  · refine orderly_bind ?_ fun _ => orderly_ret _
    unfold setPreferredP
    split
    · exact orderly_entries _ _ _
    · exact orderly_ret _
  · exact orderly_ret _

theorem orderly_ids {v : View} (hv : Short v) (s : Strategy) : Orderly (alternativeIdsP v s) := by
  unfold alternativeIdsP
  cases s with
  | disk => exact orderly_andThen (orderly_disks _) fun _ => orderly_ret _
  | default => exact orderly_ret _
  | ethernet =>
    dsimp only
    split
    · exact orderly_bind (orderly_log hv) fun _ => orderly_ret _
    · exact orderly_ret _
  | ip =>
    dsimp only
    split
    · exact orderly_bind (orderly_log hv) fun _ => orderly_ret _
    · exact orderly_ret _

theorem orderly_validate {v : View} (hv : Short v) (code : Bytes) : Orderly (validatePcSignatureP v code) := by
  unfold validatePcSignatureP
  dsimp only
  refine orderly_andThen (orderly_bind (orderly_ret _) fun h => orderly_bind (orderly_ret _) fun s => ?_) fun o => ?_
  · unfold validateIdentifierP
    split
    · exact orderly_ret _
    · split
      · exact orderly_bind (orderly_ids hv s) fun _ => orderly_ret _
      · exact orderly_ret _
  · cases o with
    | ok a => exact orderly_ret _
    | ub => exact orderly_ret _
    | throw e =>
      dsimp only
      split
      · exact orderly_bind (orderly_log hv) fun _ => orderly_ret _
      · exact orderly_ret _

theorem orderly_try {v : View} (hv : Short v) (ns : List Int) : Orderly (tryStrategiesP v ns) := by
  induction ns with
  | nil => exact orderly_ret _
  | cons n ns ih =>
    rw [tryStrategiesP]
    refine orderly_bind (orderly_ret _) fun s => orderly_bind (orderly_ids hv s) fun ids => ?_
    cases ids.head? with
    | some h => exact orderly_ret _
    | none => exact ih

theorem orderly_identify {v : View} (hv : Short v) (strategy : Int) (buf : Option Bytes) (size : Nat) :
    Orderly (identifyPcP v strategy buf size) := by
  unfold identifyPcP
  cases buf with
  | none => exact orderly_ret _
  | some mem =>
    dsimp only
    split
    · refine orderly_andThen ?_ fun o => ?_
      · unfold generateUserPcSignatureP
        refine orderly_bind ?_ fun _ => orderly_bind (orderly_ret _) fun s => orderly_bind ?_ fun r => ?_
        · unfold warnUnknownP
          split
          · exact orderly_log hv
          · exact orderly_ret _
        · unfold generatePcIdP
          cases s with
          | default => exact orderly_bind (orderly_ret _) fun _ => orderly_try hv _
          | disk => exact orderly_bind (orderly_ids hv _) fun _ => orderly_ret _
          | ethernet => exact orderly_bind (orderly_ids hv _) fun _ => orderly_ret _
          | ip => exact orderly_bind (orderly_ids hv _) fun _ => orderly_ret _
        · cases r <;> exact orderly_ret _
      · cases o with
        | ub => exact orderly_ret _
        | throw e => exact orderly_bind (orderly_log hv) fun _ => orderly_ret _
        | ok id =>
          dsimp only
          cases mstrlcpy mem (id ++ [0]) size <;> exact orderly_ret _
    · exact orderly_ret _

theorem orderly_locators {v : View} (hv : Short v) (f : Bytes) (ls : List Locator) : ∀ r, Orderly (readLocatorsP v f r ls) := by
  induction ls with
  | nil => intro r; exact orderly_ret _
  | cons l ls ih =>
    intro r
    rw [readLocatorsP]
    refine orderly_bind ?_ fun x => orderly_bind (orderly_ret _) fun y => orderly_bind (ih _) fun _ => orderly_ret _
    unfold licenseLocationsP
    split
    · exact orderly_bind (orderly_log hv) fun _ => orderly_ret _
    · exact orderly_ret _

theorem orderly_judge {cfg : Config} {v : View} {caller : Option Caller} (hv : Short v) (ls : List FullLicense) :
    ∀ r k, Orderly (judgeLoopP cfg v caller r k ls) := by
  induction ls with
  | nil => intro r k; exact orderly_ret _
  | cons l ls ih =>
    intro r k
    rw [judgeLoopP]
    refine orderly_bind ?_ fun x => orderly_bind (orderly_ret _) fun y => ?_
    · unfold verifySignatureP
      exact orderly_bind (orderly_verify hv _ _) fun _ => orderly_bind (orderly_ret _) fun _ => orderly_ret _
    · dsimp only
      split
      · refine orderly_bind ?_ fun z => orderly_bind (ih _ _) fun _ => orderly_ret _
        unfold verifyLimitsP
        split
        · refine orderly_bind (orderly_ret _) fun x => ?_
          obtain ⟨r1, b1⟩ := x
          dsimp only
          split
          · refine orderly_bind (orderly_ret _) fun x => ?_
            obtain ⟨r2, b2⟩ := x
            dsimp only
            split
            · refine orderly_bind ?_ fun x => orderly_ret _
              unfold checkClientP
              split
              · exact orderly_ret _
              · exact orderly_bind (orderly_validate hv _) fun _ => orderly_bind (orderly_ret _) fun _ => orderly_ret _
            · exact orderly_ret _
          · exact orderly_ret _
        · exact orderly_bind (orderly_ret _) fun _ => orderly_ret _
      · exact orderly_bind (ih _ _) fun _ => orderly_ret _

theorem orderly_acquire {cfg : Config} {v : View} {caller : Option Caller} {hint : Option LicenseLocation} {out : Option LicInfo}
    (hv : Short v) : Orderly (acquireP cfg v caller hint out) := by
  unfold acquireP
  refine orderly_bind (orderly_ret _) fun f => orderly_bind ?_ fun x => ?_
  · unfold readLicensesP
    dsimp only
    split
    · exact orderly_ret _
    · refine orderly_bind (orderly_locators hv f _ _) fun x => ?_
      split
      · exact orderly_bind (orderly_ret _) fun _ => orderly_ret _
      · exact orderly_ret _
  · obtain ⟨r, lics⟩ := x
    cases lics with
    | nil => exact orderly_ret _
    | cons l ls => exact orderly_bind (orderly_judge hv _ _ _) fun _ => orderly_ret _

theorem orderly_call {c : Call} (h : Short c.view) : Orderly c.prog := by
  cases c with
  | acquire cfg v caller hint out => exact orderly_bind (orderly_acquire h) fun _ => orderly_ret _
  | identify v strategy buf size => exact orderly_bind (orderly_identify h _ _ _) fun _ => orderly_ret _

theorem orderly_thread (cs : List Call) (h : ∀ c ∈ cs, Short c.view) : Orderly (threadP cs) := by
  induction cs with
  | nil => exact orderly_ret _
  | cons c cs ih =>
    rw [threadP]
    exact orderly_bind (orderly_call (h c (by simp))) fun _ => orderly_bind (ih fun c hc => h c (by simp [hc])) fun _ => orderly_ret _

/-! ## A thread -/

theorem gives_call {c : Call} (hv : Short c.view) : Gives c.prog c.alone := by
  cases c with
  | acquire cfg v caller hint out =>
    have h : Follows v _ _ := follows_bind (follows_acquire cfg v caller hint out) fun r => follows_ret v (.ok (Result.acquired r))
    have := h.gives hv
    rw [← short_world (v := v) hv] at this
    exact this
  | identify v strategy buf size =>
    have h : Follows v _ _ := follows_bind (follows_identify v strategy buf size) fun r => follows_ret v (.ok (Result.identified r))
    have := h.gives hv
    rw [show (osAt v false).machine = v.sys.os.machine from (congrArg World.machine (short_world (v := v) hv)).symm] at this
    exact this

theorem uses_call {x : Call} (hx : x.Works) {c : Cell} (hc : c ≠ .tmBuffer) : UsesIff x.prog c (x.Touches c) := by
  obtain ⟨⟨res, hr⟩, hv, hclock⟩ := hx
  cases x with
  | acquire cfg v caller hint out =>
    obtain ⟨r, h1, _⟩ := Outcome.bind_eq_ok.mp hr
    exact (uses_bind ((follows_acquire cfg v caller hint out).gives hv) (uses_acquire hv hc hclock h1) (r := fun _ => False)
      fun _ _ => uses_ret _ c).congr (by simp)
  | identify v strategy buf size =>
    obtain ⟨r, h1, _⟩ := Outcome.bind_eq_ok.mp hr
    exact (uses_bind ((follows_identify v strategy buf size).gives hv) (uses_identify hv hc h1) (r := fun _ => False)
      fun _ _ => uses_ret _ c).congr (by simp)

/-- The results of calls made one after the other. -/
def aloneAll : List Call → Outcome (List Result)
  | [] => .ok []
  | c :: cs => do return (← c.alone) :: (← aloneAll cs)

theorem gives_thread (cs : List Call) (h : ∀ c ∈ cs, Short c.view) : Gives (threadP cs) (aloneAll cs) := by
  induction cs with
  | nil => exact gives_ret _
  | cons c cs ih =>
    have h1 := gives_call (h c (by simp))
    have h2 := ih fun c hc => h c (by simp [hc])
    intro s
    rw [threadP, aloneAll, bind_def, result_andThen, h1 s]
    cases c.alone with
    | ok a =>
      dsimp only
      rw [bind_def, result_andThen, h2 (c.prog.final s)]
      cases aloneAll cs <;> rfl
    | throw e => rfl
    | ub => rfl

theorem uses_thread {c : Cell} (hc : c ≠ .tmBuffer) (cs : List Call) (h : ∀ x ∈ cs, x.Works) :
    UsesIff (threadP cs) c (∃ x ∈ cs, x.Touches c) := by
  induction cs with
  | nil => exact (uses_ret _ c).congr (by simp)
  | cons x cs ih =>
    have hx := h x (by simp)
    obtain ⟨r, hr⟩ := hx.returns
    rw [threadP]
    refine (uses_bind (gives_call hx.tmpdir) (uses_call hx hc) (r := fun _ => ∃ x ∈ cs, x.Touches c) fun _ _ =>
      (uses_bind (gives_thread cs fun c hc => (h c (by simp [hc])).tmpdir) (ih fun c hc => h c (by simp [hc])) (r := fun _ => False)
        fun _ _ => uses_ret _ c).congr (by simp)).congr ?_
    rw [hr]
    simp

/-! ## The theorems -/

/-- **C69**: threads that call the library, each call working on its own, can race in exactly three ways: two of them write to the log;
    two of them read /etc/fstab; two of them verify signatures and the library has not verified one before. -/
theorem C69_race_iff (s : Shared) (ts : Nat → List Call) (hw : ∀ i, ∀ c ∈ ts i, c.Works) :
    CanRace s (fun i => threadP (ts i)) ↔ InTwoThreads ts Call.Logs ∨ InTwoThreads ts Call.ReadsFstab
      ∨ s .sslInitialized = none ∧ InTwoThreads ts Call.Verifies := by
  have hord : ∀ i, Orderly (threadP (ts i)) := fun i => orderly_thread _ fun c hc => (hw i c hc).tmpdir
  have hlog : ∀ i s, Uses (threadP (ts i)) s .logFile ↔ ∃ c ∈ ts i, c.Logs := fun i s => by
    rw [uses_thread (by simp) (ts i) (hw i) s]; simp [Call.Touches]
  have hmnt : ∀ i s, Uses (threadP (ts i)) s .mntBuffer ↔ ∃ c ∈ ts i, c.ReadsFstab := fun i s => by
    rw [uses_thread (by simp) (ts i) (hw i) s]; simp [Call.Touches]
  have hini : ∀ i s, Uses (threadP (ts i)) s .sslInitialized ↔ ∃ c ∈ ts i, c.Verifies := fun i s => by
    rw [uses_thread (by simp) (ts i) (hw i) s]; simp [Call.Touches]
  rw [canRace_iff]
  unfold Disjoint
  simp only [Classical.not_forall, Classical.not_not]
  constructor
  · rintro ⟨i, j, hij, a, ha, b, hb, hc, hwr⟩
    have hb' : Uses (threadP (ts j)) s a.cell := ⟨b, hb, hc.symm⟩
    have ha' : Uses (threadP (ts i)) s a.cell := ⟨a, ha, rfl⟩
    cases hcell : a.cell with
    | logFile =>
      rw [hcell] at ha' hb'
      exact .inl ⟨i, j, hij, (hlog i s).mp ha', (hlog j s).mp hb'⟩
    | tmBuffer =>
      rw [hcell] at ha' hb'
      exact .inl ⟨i, j, hij, (hlog i s).mp ((hord i).tm s ha'), (hlog j s).mp ((hord j).tm s hb')⟩
    | mntBuffer =>
      rw [hcell] at ha' hb'
      exact .inr (.inl ⟨i, j, hij, (hmnt i s).mp ha', (hmnt j s).mp hb'⟩)
    | sslInitialized =>
      have hsame : b.cell = .sslInitialized := by rw [← hc, hcell]
      rw [hcell] at ha' hb'
      refine .inr (.inr ⟨Classical.byContradiction fun hs => ?_, i, j, hij, (hini i s).mp ha', (hini j s).mp hb'⟩)
      rcases hwr with hwr | hwr
      · refine (hord i).initialized s hs ?_
        have : a = ⟨.sslInitialized, true⟩ := by cases a; simp_all
        rw [this] at ha; exact ha
      · refine (hord j).initialized s hs ?_
        have : b = ⟨.sslInitialized, true⟩ := by cases b; simp_all
        rw [this] at hb; exact hb
  · rintro (⟨i, j, hij, hi, hj⟩ | ⟨i, j, hij, hi, hj⟩ | ⟨hs, i, j, hij, hi, hj⟩)
    · rw [← hlog i s] at hi
      rw [← hlog j s] at hj
      cases hl : s .logFile with
      | none =>
        obtain ⟨b, hb, hb'⟩ := hj
        exact ⟨i, j, hij, _, (hord i).opened s hl hi, b, hb, hb'.symm, .inl rfl⟩
      | some p =>
        exact ⟨i, j, hij, _, (hord i).logged s (by simp [hl]) hi, _, (hord j).logged s (by simp [hl]) hj, rfl, .inl rfl⟩
    · rw [← hmnt i s] at hi
      rw [← hmnt j s] at hj
      exact ⟨i, j, hij, _, (hord i).mnt s hi, _, (hord j).mnt s hj, rfl, .inl rfl⟩
    · rw [← hini i s] at hi
      rw [← hini j s] at hj
      exact ⟨i, j, hij, _, (hord i).initializes s hs hi, _, (hord j).initializes s hs hj, rfl, .inl rfl⟩

theorem aloneAll_ok (cs : List Call) (h : ∀ c ∈ cs, c.Works) : ∃ rs, aloneAll cs = .ok rs ∧ cs.map Call.alone = rs.map .ok := by
  induction cs with
  | nil => exact ⟨[], rfl, rfl⟩
  | cons c cs ih =>
    obtain ⟨r, hr⟩ := (h c (by simp)).returns
    obtain ⟨rs, h1, h2⟩ := ih fun c hc => h c (by simp [hc])
    exact ⟨r :: rs, by simp [aloneAll, hr, h1], by simp [hr, h2]⟩

/-- **C69**: threads that cannot race do not disturb each other: whatever the order of their steps, every thread that has finished has
    the results its calls give when they are made alone, and every thread can go on and finish. -/
theorem C69_results (s : Shared) (ts : Nat → List Call) (hw : ∀ i, ∀ c ∈ ts i, c.Works)
    (hr : ¬ CanRace s (fun i => threadP (ts i))) {s' : Shared} {ps : Nat → Prog (List Result)}
    (h : Steps s (fun i => threadP (ts i)) s' ps) (i : Nat) :
    (∀ o, ps i = .ret o → ∃ rs, o = .ok rs ∧ (ts i).map Call.alone = rs.map .ok)
    ∧ ∃ s'' ps' rs, Steps s' ps s'' ps' ∧ ps' i = .ret (.ok rs) := by
  have hd : Disjoint s (fun i => threadP (ts i)) := Classical.byContradiction fun hn => hr ((canRace_iff _ _).mpr hn)
  obtain ⟨rs, h1, h2⟩ := aloneAll_ok (ts i) (hw i)
  have hres : (ps i).result s' = .ok rs := by
    rw [(disjoint_steps h hd).2 i, gives_thread (ts i) (fun c hc => (hw i c hc).tmpdir) s, h1]
  refine ⟨fun o ho => ⟨rs, ?_, h2⟩, ?_⟩
  · rw [ho] at hres; exact hres
  · exact ⟨_, _, rs, run_on i (ps i) s' ps rfl, by simp [hres]⟩

/-- **C69**: a call that no other thread interrupts does what it does in the sequential model, whatever it finds in shared memory. -/
theorem C69_alone (c : Call) (s : Shared) (ts : Nat → Prog Result) (i : Nat) (hi : ts i = c.prog)
    (ho : ∀ j, j ≠ i → ∃ o, ts j = .ret o) :
    (∃ s', Steps s ts s' (fun j => if j = i then .ret (c.withLog (s .logFile)).alone else ts j))
    ∧ ∀ s' ts' o, Steps s ts s' ts' → ts' i = .ret o → o = (c.withLog (s .logFile)).alone := by
  have hres : c.prog.result s = (c.withLog (s .logFile)).alone := by
    cases c with
    | acquire cfg v caller hint out =>
      exact (follows_bind (follows_acquire cfg v caller hint out) (fun r => follows_ret v (.ok (Result.acquired r))) s).1
    | identify v strategy buf size =>
      exact (follows_bind (follows_identify v strategy buf size) (fun r => follows_ret v (.ok (Result.identified r))) s).1
  refine ⟨⟨c.prog.final s, ?_⟩, fun s' ts' o h hd => ?_⟩
  · rw [← hres]
    exact run_on i c.prog s ts hi
  · have := (only_one h ho).2.1
    rw [hd, hi, hres] at this
    exact this

/-- **C69**: a signature verified before the threads start is enough to avoid the third kind of race. -/
theorem C69_warm_up (c : Call) (hw : c.Works) (hv : c.Verifies) (s s' : Shared) (ts ts' : Nat → Prog Result) (i : Nat) (o : Outcome Result)
    (hi : ts i = c.prog) (ho : ∀ j, j ≠ i → ∃ o, ts j = .ret o) (h : Steps s ts s' ts') (hd : ts' i = .ret o) :
    s' .sslInitialized ≠ none := by
  have hf := (only_one h ho).1
  rw [hd, hi] at hf
  rw [show s' = (Prog.ret o).final s' from rfl, hf]
  have hord := orderly_call hw.tmpdir
  by_cases hs : s .sslInitialized = none
  · exact hord.stays s (hord.initializes s hs ((uses_call hw (by simp) s).mpr (.inr (.inr ⟨rfl, hv⟩))))
  · rw [unwritten _ _ _ (hord.initialized s hs)]; exact hs

/-! ## What a race does -/

/-- What a thread returned. -/
def Prog.returned {α : Type} : Prog α → Option (Outcome α)
  | .ret o => some o
  | _ => none

theorem returned_iff {α : Type} {p : Prog α} {o : Outcome α} : p.returned = some o ↔ p = .ret o := by
  cases p <;> simp [Prog.returned]

def sampleView : View := ⟨sampleLinux, fun _ => true⟩

/-- identify_pc with the disk strategy. -/
def diskCall : Call := .identify sampleView 2 (some (List.replicate 20 0)) 20

/-- identify_pc with a strategy that does not exist; `opens` says whether the log file can be opened. -/
def badCall (opens : Bool) : Call := .identify ⟨sampleLinux, fun _ => opens⟩ 7 (some (List.replicate 20 0)) 20

/-- At the start of the program. -/
def noShared : Shared := fun _ => none

/-- Two threads make one call each. -/
def twoThreads (c d : Call) : Nat → List Call
  | 0 => [c]
  | 1 => [d]
  | _ => []

/-- **C69** (a race over getmntent): of two threads that ask for the disk identifier one can get the identifier of a disk that
    /etc/fstab does not name, though each call alone returns that of the disk it names. -/
theorem C69_wrong_identifier : ∃ s' ps, Steps noShared (fun i => threadP (twoThreads diskCall diskCall i)) s' ps
    ∧ diskCall.alone = .ok (.identified ⟨true, 20, some (b!"AFuy-3QIv-08Q=" ++ List.replicate 6 0)⟩)
    ∧ ps 0 = .ret (.ok [.identified ⟨true, 20, some (b!"AEGy-w9QA-AAA=" ++ List.replicate 6 0)⟩]) := by
  refine ⟨_, _, steps_schedule [1, 1, 1, 0, 1, 0, 0, 0, 0, 0, 0, 0, 0, 0] _ _, by decide +kernel, ?_⟩
  rw [← returned_iff]
  decide +kernel

/-- **C69** (a race over the log file): of two threads that log their first message one can crash if the other cannot open the log
    file, though each call alone returns `false`. -/
theorem C69_log_crash : ∃ s' ps, Steps noShared (fun i => threadP (twoThreads (badCall true) (badCall false) i)) s' ps
    ∧ (∀ b, (badCall b).alone = .ok (.identified ⟨false, 20, some (List.replicate 20 0)⟩))
    ∧ ps 0 = .ret .ub := by
  refine ⟨_, _, steps_schedule [1, 0, 0, 0, 0, 0, 1, 0] _ _, by decide +kernel, ?_⟩
  rw [← returned_iff]
  decide +kernel

/-- The computer of the licence, with a usual /etc/fstab. -/
def procView : View := ⟨{ sampleLinux with disks := { sampleDisks with fstab := some [b!"UUID=c4e8dc21-6ab4-4d8f-9f5a-0123456789ab", b!"proc"] } },
  fun _ => true⟩

/-- acquire_license with a licence bound to its disk. -/
def procCall : Call := .acquire sampleConfig procView (some sampleCaller) none none

/-- What acquire_license returned to a thread. -/
def returnedBy : Prog (List Result) → List (Option EventType)
  | .ret (.ok rs) => rs.map fun
    | .acquired r => some r.ret
    | _ => none
  | _ => []

/-- **C69** (a race over getmntent): of two threads that acquire a licence bound to the disk one can be told that the hardware does
    not match, though each call alone returns LICENSE_OK. -/
theorem C69_licence_refused : ∃ s' ps, Steps noShared (fun i => threadP (twoThreads procCall procCall i)) s' ps
    ∧ retOf (acquire sampleConfig procView.sys.world (some sampleCaller) none none) = some .licenseOk
    ∧ returnedBy (ps 0) = [some .identifiersMismatch] := by
  refine ⟨_, _, steps_schedule (List.replicate 7 0 ++ [1, 1, 1] ++ List.replicate 40 0) _ _, by decide +kernel, ?_⟩
  decide +kernel

/-! ## The hypotheses are met -/

theorem diskCall_works : diskCall.Works where
  returns := ⟨.identified ⟨true, 20, some (b!"AFuy-3QIv-08Q=" ++ List.replicate 6 0)⟩, by decide +kernel⟩
  tmpdir d h := by cases h
  clock := trivial

theorem badCall_works (b : Bool) : (badCall b).Works where
  returns := ⟨.identified ⟨false, 20, some (List.replicate 20 0)⟩, by cases b <;> decide +kernel⟩
  tmpdir d h := by cases h
  clock := by cases b <;> trivial

/-- A computer with a licence that is not bound to it. -/
def freeText : Bytes := issuedText (b!"test") [(b!"valid-to", b!"20300101")] (b!"QUJD")

def freeLinux : Linux := { sampleLinux with
  ssl := { sampleLinux.ssl with digestFinal := fun data s => if data = b!"TESTlic_ver200valid-to20300101" ∧ s = b!"UJD" then 1 else 0 }
  read := fun p => if p = b!"/opt/app.lic" then some freeText else none }

/-- acquire_license with that licence. -/
def freeCall : Call := .acquire sampleConfig ⟨freeLinux, fun _ => true⟩ (some sampleCaller) none none

/-- acquire_license with a licence bound to a disk. -/
def boundCall : Call := .acquire sampleConfig sampleView (some sampleCaller) none none

example : retOf (acquire sampleConfig freeLinux.world (some sampleCaller) none none) = some .licenseOk := by decide +kernel

theorem freeCall_works : freeCall.Works where
  returns := by
    have h : (match freeCall.alone with | .ok _ => true | _ => false) = true := by decide +kernel
    cases hc : freeCall.alone with
    | ok r => exact ⟨r, rfl⟩
    | throw e => rw [hc] at h; simp at h
    | ub => rw [hc] at h; simp at h
  tmpdir d h := by cases h
  clock := fun _ _ _ _ _ _ _ => Iff.rfl

/-- The same while the clock runs. -/
def runningCall : Call :=
  .acquire sampleConfig ⟨{ freeLinux with clock := fun k => sampleNow + k }, fun _ => true⟩ (some sampleCaller) none none

theorem free_offer {w : World} {src text : Bytes} (h : Offers sampleConfig w none src text) (h1 : w.read = freeLinux.world.read)
    (h2 : w.moduleName = freeLinux.world.moduleName) : text = freeText := by
  cases h with
  | nearModule _ hm _ hr =>
    rw [h2] at hm
    have hm' : freeLinux.world.moduleName = some (b!"/opt/app") := by decide +kernel
    rw [hm'] at hm
    obtain rfl := Option.some.inj hm
    rw [h1] at hr
    have hr' : freeLinux.world.read (removeExtension (b!"/opt/app") ++ b!".lic") = some freeText := by decide +kernel
    rw [hr'] at hr
    obtain rfl := Option.some.inj hr
    decide +kernel
  | envLocation h => simp [sampleConfig] at h
  | envData h => simp [sampleConfig] at h
  | envDataEncoded h => simp [sampleConfig] at h
  | hintPath h => simp at h
  | hintPathOddName h => simp at h
  | hintPlain h => simp at h
  | hintEncoded h => simp at h

theorem free_inForce {t : Int} {f : Bytes} (hf : FeatureIs sampleConfig (some sampleCaller) f)
    (h : retOf (acquire sampleConfig { freeLinux with clock := fun _ => t }.world (some sampleCaller) none none) = some .licenseOk) :
    NotExpired freeLinux.world f freeText t ∧ Started freeLinux.world f freeText t := by
  obtain ⟨res, h1, h2⟩ := retOf_ok h
  obtain ⟨g, src, text, k, h3, h4, _, h5⟩ := C01_license_ok_sound h1 h2
  obtain rfl := featureIs_unique h3 hf
  obtain rfl := free_offer h4 rfl rfl
  exact ⟨h5.notExpired, h5.started⟩

theorem runningCall_works : runningCall.Works where
  returns := by
    have h : (match runningCall.alone with | .ok _ => true | _ => false) = true := by decide +kernel
    cases hc : runningCall.alone with
    | ok r => exact ⟨r, rfl⟩
    | throw e => rw [hc] at h; simp at h
    | ub => rw [hc] at h; simp at h
  tmpdir d h := by cases h
  clock res hr f text hv k hk := by
    obtain ⟨hf, ⟨src, ho⟩, _⟩ := hv
    obtain rfl := free_offer ho rfl rfl
    have hticks : (match acquire sampleConfig { freeLinux with clock := fun k => sampleNow + k }.world (some sampleCaller) none none with
      | .ok r => decide (r.ticks ≤ 10) | _ => true) = true := by decide +kernel
    rw [hr] at hticks
    simp only [decide_eq_true_eq] at hticks
    have first := free_inForce (t := sampleNow) hf (by decide +kernel)
    have last := free_inForce (t := sampleNow + 10) hf (by decide +kernel)
    have all : ∀ j : Nat, j ≤ 10 → NotExpired freeLinux.world f freeText (sampleNow + j) ∧ Started freeLinux.world f freeText (sampleNow + j) := by
      intro j hj
      refine ⟨fun d hd => ?_, fun d hd => ?_⟩
      · obtain ⟨t, h1, h2⟩ := last.1 d hd
        exact ⟨t, h1, by omega⟩
      · obtain ⟨t, h1, h2⟩ := first.2 d hd
        exact ⟨t, h1, by omega⟩
    exact ⟨fun _ => all 0 (by omega), fun _ => all k (by omega)⟩

theorem boundCall_works : boundCall.Works where
  returns := by
    have h : (match boundCall.alone with | .ok _ => true | _ => false) = true := by decide +kernel
    cases hc : boundCall.alone with
    | ok r => exact ⟨r, rfl⟩
    | throw e => rw [hc] at h; simp at h
    | ub => rw [hc] at h; simp at h
  tmpdir d h := by cases h
  clock := fun _ _ _ _ _ _ _ => Iff.rfl

/-- What a call accesses can be computed. -/
theorem touches_of_trace {x : Call} (hx : x.Works) {c : Cell} (hc : c ≠ .tmBuffer) :
    x.Touches c ↔ (x.prog.trace noShared).any (fun a => a.cell = c) = true := by
  rw [← uses_call hx hc noShared]
  unfold Uses
  simp

theorem freeCall_logs : ¬ freeCall.Logs := by
  have h := touches_of_trace freeCall_works (c := .logFile) (by simp)
  simp only [Call.Touches, reduceCtorEq, false_and, or_false, true_and] at h
  rw [h]
  decide +kernel

theorem freeCall_fstab : ¬ freeCall.ReadsFstab := by
  have h := touches_of_trace freeCall_works (c := .mntBuffer) (by simp)
  simp only [Call.Touches, reduceCtorEq, false_and, or_false, false_or, true_and] at h
  rw [h]
  decide +kernel

theorem freeCall_verifies : freeCall.Verifies := by
  have h := touches_of_trace freeCall_works (c := .sslInitialized) (by simp)
  simp only [Call.Touches, reduceCtorEq, false_and, false_or, true_and] at h
  rw [h]
  decide +kernel

theorem twoThreads_works {c d : Call} (hc : c.Works) (hd : d.Works) : ∀ i, ∀ x ∈ twoThreads c d i, x.Works := by
  intro i x hx
  match i with
  | 0 => simp [twoThreads] at hx; exact hx ▸ hc
  | 1 => simp [twoThreads] at hx; exact hx ▸ hd
  | i + 2 => simp [twoThreads] at hx

/-- Two threads that acquire a free licence: a race exactly if no signature was verified before. -/
example (s : Shared) : CanRace s (fun i => threadP (twoThreads freeCall freeCall i)) ↔ s .sslInitialized = none := by
  rw [C69_race_iff s _ (twoThreads_works freeCall_works freeCall_works)]
  have hno : ∀ P : Call → Prop, ¬ P freeCall → ¬ InTwoThreads (twoThreads freeCall freeCall) P := by
    rintro P hP ⟨i, j, hij, ⟨c, hc, hp⟩, _⟩
    match i with
    | 0 => simp [twoThreads] at hc; exact hP (hc ▸ hp)
    | 1 => simp [twoThreads] at hc; exact hP (hc ▸ hp)
    | i + 2 => simp [twoThreads] at hc
  constructor
  · rintro (h | h | h)
    · exact absurd h (hno _ freeCall_logs)
    · exact absurd h (hno _ freeCall_fstab)
    · exact h.1
  · intro h
    exact .inr (.inr ⟨h, 0, 1, by simp, ⟨freeCall, by simp [twoThreads], freeCall_verifies⟩,
      ⟨freeCall, by simp [twoThreads], freeCall_verifies⟩⟩)

/-- Two threads that acquire a licence bound to a disk always race; so do two that ask for the disk identifier, and two that fail. -/
example (s : Shared) : CanRace s (fun i => threadP (twoThreads boundCall boundCall i)) := by
  rw [C69_race_iff s _ (twoThreads_works boundCall_works boundCall_works)]
  have h := touches_of_trace boundCall_works (c := .mntBuffer) (by simp)
  simp only [Call.Touches, reduceCtorEq, false_and, or_false, false_or, true_and] at h
  have h' : boundCall.ReadsFstab := h.mpr (by decide +kernel)
  exact .inr (.inl ⟨0, 1, by simp, ⟨_, by simp [twoThreads], h'⟩, ⟨_, by simp [twoThreads], h'⟩⟩)

example (s : Shared) : CanRace s (fun i => threadP (twoThreads diskCall boundCall i)) := by
  rw [C69_race_iff s _ (twoThreads_works diskCall_works boundCall_works)]
  have h := touches_of_trace boundCall_works (c := .mntBuffer) (by simp)
  simp only [Call.Touches, reduceCtorEq, false_and, or_false, false_or, true_and] at h
  have h' : boundCall.ReadsFstab := h.mpr (by decide +kernel)
  have g := touches_of_trace diskCall_works (c := .mntBuffer) (by simp)
  simp only [Call.Touches, reduceCtorEq, false_and, or_false, false_or, true_and] at g
  have g' : diskCall.ReadsFstab := g.mpr (by decide +kernel)
  exact .inr (.inl ⟨0, 1, by simp, ⟨_, by simp [twoThreads], g'⟩, ⟨_, by simp [twoThreads], h'⟩⟩)

example (s : Shared) : CanRace s (fun i => threadP (twoThreads (badCall true) (badCall true) i)) := by
  rw [C69_race_iff s _ (twoThreads_works (badCall_works _) (badCall_works _))]
  have h := touches_of_trace (badCall_works true) (c := .logFile) (by simp)
  simp only [Call.Touches, reduceCtorEq, false_and, or_false, true_and] at h
  have h' : (badCall true).Logs := h.mpr (by decide +kernel)
  exact .inl ⟨0, 1, by simp, ⟨_, by simp [twoThreads], h'⟩, ⟨_, by simp [twoThreads], h'⟩⟩

/-- A thread that identifies the computer and one that acquires a free licence do not race. -/
example (s : Shared) : ¬ CanRace s (fun i => threadP (twoThreads diskCall freeCall i)) := by
  rw [C69_race_iff s _ (twoThreads_works diskCall_works freeCall_works)]
  have g := touches_of_trace diskCall_works (c := .logFile) (by simp)
  simp only [Call.Touches, reduceCtorEq, false_and, or_false, true_and] at g
  have g' : ¬ diskCall.Logs := by rw [g]; decide +kernel
  have hno : ∀ P : Call → Prop, (¬ P diskCall ∨ ¬ P freeCall) → ¬ InTwoThreads (twoThreads diskCall freeCall) P := by
    rintro P hP ⟨i, j, hij, ⟨c, hc, hp⟩, ⟨d, hd, hq⟩⟩
    have h2 : ∀ i c, c ∈ twoThreads diskCall freeCall i → i = 0 ∧ c = diskCall ∨ i = 1 ∧ c = freeCall := by
      intro i c hc
      match i with
      | 0 => simp [twoThreads] at hc; exact .inl ⟨rfl, hc⟩
      | 1 => simp [twoThreads] at hc; exact .inr ⟨rfl, hc⟩
      | i + 2 => simp [twoThreads] at hc
    rcases h2 i c hc with ⟨rfl, rfl⟩ | ⟨rfl, rfl⟩ <;> rcases h2 j d hd with ⟨rfl, rfl⟩ | ⟨rfl, rfl⟩
    · exact hij rfl
    · exact hP.elim (fun h => h hp) (fun h => h hq)
    · exact hP.elim (fun h => h hq) (fun h => h hp)
    · exact hij rfl
  rintro (h | h | ⟨_, h⟩)
  · exact hno _ (.inl g') h
  · exact hno _ (.inr freeCall_fstab) h
  · exact hno Call.Verifies (.inl (fun h => h)) h

end Licensecc.Threads
