import Verif.Spec.WinThreads
import Verif.Props.Threads
import Verif.Props.Windows
import Verif.Props.Resources
/-!
# Calls in several threads on Windows (C69): what a call does alone
-/
namespace Licensecc.Win.Threads
open Licensecc.Spec
open Licensecc.Threads (Prog Shared Cell Result Access Uses Writes unwritten uses_append writes_append result_andThen trace_andThen bind_def InForce
  judge_verdicts)

/-- Alone, the program has the outcome `o`; it uses the log exactly if `q` holds; it touches nothing else; it writes the pointer exactly if
    the log file is not open and `q` holds. -/
structure Behaves {α : Type} (p : Prog α) (o : Outcome α) (q : Prop) : Prop where
  result : ∀ s, p.result s = o
  uses : ∀ s, Uses p s .logFile ↔ q
  only : ∀ s, ∀ a ∈ p.trace s, a.cell = .logFile
  reads : ∀ s, s .logFile ≠ none → ¬ Writes p s .logFile
  opens : ∀ s, s .logFile = none → q → Writes p s .logFile

theorem behaves_ret {α : Type} (o : Outcome α) : Behaves (.ret o) o False := by
  constructor <;> intro s <;> simp [Uses, Writes, Prog.trace, Prog.result]

theorem Behaves.congr {α : Type} {p : Prog α} {o o' : Outcome α} {q q' : Prop} (h : Behaves p o q) (ho : o = o') (hq : q ↔ q') :
    Behaves p o' q' := by
  obtain rfl := ho
  obtain rfl := propext hq
  exact h

theorem behaves_andThen {α β : Type} {p : Prog α} {f : Outcome α → Prog β} {o : Outcome α} {o' : Outcome β} {q r : Prop}
    (hp : Behaves p o q) (hf : Behaves (f o) o' r) : Behaves (p.andThen f) o' (q ∨ r) := by
  refine ⟨fun s => ?_, fun s => ?_, fun s a ha => ?_, fun s hs h => ?_, fun s hs h => ?_⟩
  · rw [result_andThen, hp.result, hf.result]
  · rw [uses_append, hp.uses, hp.result, hf.uses]
  · rw [trace_andThen, hp.result, List.mem_append] at ha
    rcases ha with ha | ha
    · exact hp.only s a ha
    · exact hf.only _ a ha
  · rcases (writes_append p f s _).mp h with h | h
    · exact hp.reads s hs h
    · rw [hp.result] at h
      exact hf.reads _ (by rw [unwritten p .logFile s (hp.reads s hs)]; exact hs) h
  · rw [writes_append]
    by_cases hq : q
    · exact .inl (hp.opens s hs hq)
    · have hsame := unwritten p .logFile s (fun hw => hq ((hp.uses s).mp hw.uses))
      rw [hp.result]
      exact .inr (hf.opens _ (by rw [hsame, hs]) (h.resolve_left hq))

theorem behaves_bind {α β : Type} {p : Prog α} {f : α → Prog β} {o : Outcome α} {g : α → Outcome β} {q : Prop} {r : α → Prop}
    (hp : Behaves p o q) (hf : ∀ a, o = .ok a → Behaves (f a) (g a) (r a)) :
    Behaves (p >>= f) (o >>= g) (q ∨ ∃ a, o = .ok a ∧ r a) := by
  rw [bind_def]
  refine behaves_andThen hp ?_
  cases o with
  | ok a => exact (hf a rfl).congr rfl (by simp)
  | throw e => exact (behaves_ret _).congr rfl (by simp)
  | ub => exact (behaves_ret _).congr rfl (by simp)

/-- After something pure. -/
theorem behaves_pure {α β : Type} {o : Outcome α} {f : α → Prog β} {g : α → Outcome β} {r : Prop}
    (hf : ∀ a, o = .ok a → Behaves (f a) (g a) r) (hr : r → ∃ a, o = .ok a) : Behaves (.ret o >>= f) (o >>= g) r :=
  (behaves_bind (behaves_ret o) hf).congr rfl ⟨by rintro (h | ⟨a, _, h⟩) <;> first | exact h.elim | exact h, fun h => .inr ((hr h).elim fun a ha => ⟨a, ha, h⟩)⟩

/-- The path of the log file fits. -/
def Fits (v : View) : Prop := ∃ d, v.sys.tempPath = some d ∧ d.length < 244

/-- The world, with the behaviour of logging given. -/
def worldAt (v : View) (b : Bool) : World :=
  { v.sys.world with machine := (⟨v.sys.net, v.sys.drives, v.sys.host, v.sys.getenv (b!"IDENTIFICATION_STRATEGY"), b⟩ : WinOs).machine }

theorem quiet_world {v : View} (hv : Fits v) : v.quiet.world = v.sys.world := by
  have h1 : v.sys.world = worldAt v v.sys.logOverruns := rfl
  have h2 : v.quiet.world = worldAt v false := rfl
  have h3 : v.sys.logOverruns = false := by
    rw [Bool.eq_false_iff]
    intro ho
    obtain ⟨d, h1, h2⟩ := hv
    have := ((overrunsWin_iff _ _).mp ho).2 d h1
    omega
  rw [h1, h2, h3]

theorem quiet_machine {v : View} (hv : Fits v) : v.quiet.os.machine = v.sys.os.machine := congrArg World.machine (quiet_world hv)

theorem quiet_log (v : View) : v.quiet.os.machine.logOverruns = false := rfl

theorem behaves_log {v : View} (hv : Fits v) : Behaves (logP v) (.ok ()) True := by
  obtain ⟨d, hd, hlen⟩ := hv
  have hub : Logger.getLogFnameWin v.sys.tempPath ≠ .ub := by
    intro h
    have : Logger.overrunsWin v.sys.tempPath ⟨none, fun _ => []⟩ = true := by simp [Logger.overrunsWin, h]
    have := ((overrunsWin_iff _ _).mp this).2 d hd
    omega
  cases hg : Logger.getLogFnameWin v.sys.tempPath with
  | ub => exact absurd hg hub
  | throw e =>
    exfalso
    rw [hd] at hg
    unfold Logger.getLogFnameWin Logger.strncat at hg
    dsimp only at hg
    repeat' split at hg
    all_goals simp at hg
  | ok p =>
    constructor <;> intro s <;>
    · cases hl : s .logFile with
      | some q =>
        simp [Uses, Writes, logP, logBody, Prog.trace, Prog.result, hl, Shared.set]
      | none =>
        cases ho : v.opens p <;>
        simp [Uses, Writes, logP, logBody, Prog.trace, Prog.result, hl, hg, ho, Shared.set]

theorem behaves_logged {α : Type} {v : View} (hv : Fits v) (o : Outcome α) : Behaves (do logP v; .ret o) o True :=
  (behaves_bind (behaves_log hv) (g := fun _ => o) (r := fun _ => False) fun _ _ => behaves_ret _).congr rfl (by simp)

theorem adapters_no_throw (n : Net) (e : Exn) : n.getAdapterInfos ≠ .throw e := by
  have hc : ∀ l, n.collect l ≠ .throw e := by
    intro l h
    rcases Outcome.bind_eq_throw.mp h with h | ⟨t, _, h⟩
    · exact Resources.adaptersOfList_no_throw l e h
    · simp at h
  intro h
  rcases Outcome.bind_eq_throw.mp h with h | ⟨x, _, h⟩
  · unfold Net.getAdapterInfosNamed at h
    repeat' split at h
    all_goals first
      | exact hc _ h
      | simp at h
  · simp at h

theorem ids_no_throw (v : View) (s : Strategy) (hs : s ≠ .default) (e : Exn) : alternativeIds v.quiet.os.machine s ≠ .throw e := by
  intro h
  rw [alternativeIds_throw_iff] at h
  have hn : ∀ b, generateEthernetIds v.quiet.os.machine b ≠ .throw e := by
    intro b h
    rcases Outcome.bind_eq_throw.mp h with h | ⟨x, _, h⟩
    · exact adapters_no_throw _ e h
    · dsimp only at h
      repeat' split at h
      all_goals simp at h
  cases s with
  | default => exact hs rfl
  | ethernet => exact hn _ h
  | ip => exact hn _ h
  | disk =>
    simp only [payloads, generateDiskIds] at h
    rcases Outcome.bind_eq_throw.mp h with h | ⟨x, _, h⟩
    · exact absurd h (by simp [Windows.os, WinOs.machine])
    · repeat' split at h
      all_goals simp at h

theorem behaves_validate {v : View} (hv : Fits v) {code : Bytes} {ev : EventType}
    (hok : validatePcSignature v.quiet.os.machine code = .ok ev) :
    Behaves (validatePcSignatureP v code) (validatePcSignature v.quiet.os.machine code) (NoIdentifier code) := by
  unfold validatePcSignatureP
  unfold validatePcSignature at hok ⊢
  dsimp only at hok ⊢
  have hthrow : NoIdentifier code ↔ ∃ e, (do
      let h ← HwId.ofString code
      let s ← getStrategy h.strategy
      validateIdentifier v.quiet.os.machine s h : Outcome EventType) = .throw e := by
    unfold NoIdentifier
    cases ho : HwId.ofString code with
    | ub => simp
    | throw e => simp
    | ok h =>
      have hr := Licensecc.Threads.strategy_range h
      simp only [Outcome.ok_bind, Outcome.ok.injEq, reduceCtorEq, exists_false, false_or, exists_eq_left']
      by_cases h3 : 3 ≤ h.strategy
      · have : getStrategy h.strategy = .throw .logicError := by
          unfold getStrategy
          rw [if_neg (by omega), if_neg (by omega), if_neg (by omega), if_neg (by omega)]
        simp [this, h3]
      · obtain ⟨s, hs⟩ : ∃ s, getStrategy h.strategy = .ok s := by
          unfold getStrategy
          rcases (show h.strategy = 0 ∨ h.strategy = 1 ∨ h.strategy = 2 by omega) with h | h | h <;> simp [h]
        have hcode := (getStrategy_code _ _).mp hs
        simp only [hs, Outcome.ok_bind, h3, false_iff]
        have hnd : s ≠ .default := by rintro rfl; simp [Strategy.code] at hcode; omega
        unfold validateIdentifier
        rw [if_neg hnd, if_pos hcode]
        rintro ⟨e, he⟩
        rcases Outcome.bind_eq_throw.mp he with he | ⟨x, _, he⟩
        · exact ids_no_throw v s hnd e he
        · simp at he
  rw [hthrow]
  generalize (do
      let h ← HwId.ofString code
      let s ← getStrategy h.strategy
      validateIdentifier v.quiet.os.machine s h : Outcome EventType) = o at hok ⊢
  cases o with
  | ok a => exact (behaves_ret _).congr rfl (by simp)
  | ub => exact (behaves_ret _).congr rfl (by simp)
  | throw e =>
    dsimp only at hok ⊢
    cases he : e.isLogicError with
    | true =>
      rw [if_pos rfl, if_pos rfl, logged_eq (quiet_log v)]
      exact (behaves_logged hv _).congr rfl (by simp)
    | false =>
      rw [he, if_neg (by simp)] at hok
      simp at hok

theorem behaves_identify {v : View} (hv : Fits v) {strategy : Int} {buf : Option Bytes} {size : Nat} {res : IdentifyResult}
    (h : identifyPc v.sys.os.machine strategy buf size = .ok res) :
    Behaves (identifyPcP v strategy buf size) (identifyPc v.sys.os.machine strategy buf size)
      ((Call.identify v strategy buf size).Logs) := by
  have hnone : ¬ ((∃ mem, buf = some mem) ∧ 19 < size) → ¬ (Call.identify v strategy buf size).Logs :=
    fun hn hl => hn ⟨hl.1, hl.2.1⟩
  unfold Call.Logs at hnone ⊢
  dsimp only at hnone ⊢
  rw [← quiet_machine hv] at h hnone ⊢
  unfold identifyPcP
  cases buf with
  | none => exact (behaves_ret _).congr rfl (by simpa using hnone (by simp))
  | some mem =>
    by_cases hsize : size > 19
    · have hstep : ∀ o : Outcome Bytes, generateUserPcSignature v.quiet.os.machine strategy = o →
          identifyPc v.quiet.os.machine strategy (some mem) size = (match o with
            | .ub => .ub
            | .throw _ => .ok ⟨false, size, some mem⟩
            | .ok id => match mstrlcpy mem (id ++ [0]) size with
              | .ok (mem', _) => .ok ⟨true, size, some mem'⟩
              | .throw e => .throw e
              | .ub => .ub : Outcome IdentifyResult) := by
        rintro o rfl
        unfold identifyPc
        dsimp only
        rw [if_pos hsize]
        cases generateUserPcSignature v.quiet.os.machine strategy with
        | ub => rfl
        | throw e => exact logged_eq (quiet_log v) _
        | ok id => rfl
      dsimp only
      rw [if_pos hsize]
      have huser : Behaves (generateUserPcSignatureP v strategy) (generateUserPcSignature v.quiet.os.machine strategy)
          (VariableUnknown (v.sys.getenv (b!"IDENTIFICATION_STRATEGY")) strategy) := by
        have hw : Behaves (warnUnknownP v strategy) (v.quiet.os.machine.warnUnknown strategy)
            (VariableUnknown (v.sys.getenv (b!"IDENTIFICATION_STRATEGY")) strategy) := by
          rw [variableUnknown_iff]
          unfold warnUnknownP Machine.warnUnknown
          rw [show v.quiet.os.machine.strategyVar = v.sys.getenv (b!"IDENTIFICATION_STRATEGY") from rfl]
          split
          · rename_i hu
            rw [logged_eq (quiet_log v)]
            exact (behaves_log hv).congr rfl (by simp [hu])
          · rename_i hu
            exact (behaves_ret _).congr rfl (by simp [hu])
        unfold generateUserPcSignatureP generateUserPcSignature
        refine (behaves_bind hw (r := fun _ => False) fun _ _ => ?_).congr rfl (by simp)
        refine (behaves_bind (behaves_ret _) (r := fun _ => False) fun st _ => ?_).congr rfl (by simp)
        refine (behaves_bind (behaves_ret _) (r := fun _ => False) fun r _ => ?_).congr rfl (by simp)
        cases r <;> exact behaves_ret _
      cases hg : generateUserPcSignature v.quiet.os.machine strategy with
      | ub =>
        rw [hstep _ hg] at h
        simp at h
      | throw e =>
        rw [hg] at huser
        refine (behaves_andThen huser (behaves_logged hv (.ok (⟨false, size, some mem⟩ : IdentifyResult)))).congr (hstep _ hg).symm ?_
        simp only [or_true, true_iff]
        exact ⟨⟨mem, rfl⟩, hsize, .inr ⟨_, _, hstep _ hg⟩⟩
      | ok id =>
        rw [hg] at huser
        refine (behaves_andThen huser (o' := identifyPc v.quiet.os.machine strategy (some mem) size) (r := False) ?_).congr rfl ?_
        · rw [hstep _ hg]
          dsimp only
          cases mstrlcpy mem (id ++ [0]) size <;> exact behaves_ret _
        · rw [hstep _ hg]
          dsimp only
          constructor
          · rintro (h1 | h1)
            · exact ⟨⟨mem, rfl⟩, hsize, .inl h1⟩
            · exact h1.elim
          · rintro ⟨_, _, h1 | ⟨n, mem', h1⟩⟩
            · exact .inl h1
            · split at h1 <;> simp at h1
    · dsimp only
      rw [if_neg hsize]
      refine (behaves_ret _).congr ?_ (by simpa using hnone (by simpa using hsize))
      unfold identifyPc
      dsimp only
      rw [if_neg hsize]

end Licensecc.Win.Threads
