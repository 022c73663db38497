import Verif.Model.Logger
/-!
# C59: the log file
-/
namespace Licensecc.Logger

/-- **C59** (the property "logging is memory safe" fails): exactly when TMPDIR overruns the array for the path, and what the
    path is otherwise. -/
theorem C59_log_path (tmpdir : Option Bytes) :
    (∀ d, tmpdir = some d → 238 ≤ d.length → getLogFname tmpdir = .ub)
    ∧ (∀ d, tmpdir = some d → d.length < 238 → getLogFname tmpdir = .ok (d ++ b!"/open-license.log"))
    ∧ (tmpdir = none → getLogFname tmpdir = .ok (b!"/tmp/open-license.log")) := by
  have hcpy : ∀ d : Bytes, (d.length < 255 → strncpy d maxPath = some d) ∧ (¬ d.length < 255 → strncpy d maxPath = none) := by
    intro d; exact ⟨fun h => if_pos h, fun h => if_neg h⟩
  have hcat : ∀ d : Bytes, ¬ (d ++ logName.take (maxPath - d.length)).length + 1 ≤ maxPath →
      strncat d logName (maxPath - d.length) maxPath = .ub := fun d h => if_neg h
  have hcat' : ∀ d : Bytes, (d ++ logName.take (maxPath - d.length)).length + 1 ≤ maxPath →
      strncat d logName (maxPath - d.length) maxPath = .ok (d ++ logName.take (maxPath - d.length)) := fun d h => if_pos h
  refine ⟨?_, ?_, ?_⟩
  · rintro d rfl hl
    unfold getLogFname
    rw [Option.getD_some]
    by_cases h : d.length < 255
    · rw [(hcpy d).1 h]
      refine hcat _ (fun hlen => ?_)
      have hn : logName.length = 17 := by decide
      simp only [List.length_append, List.length_take, hn, maxPath] at hlen
      omega
    · rw [(hcpy d).2 h]
  · rintro d rfl hl
    unfold getLogFname
    rw [Option.getD_some, (hcpy d).1 (by omega)]
    have hn : logName.length = 17 := by decide
    have ht : logName.take (maxPath - d.length) = logName := List.take_of_length_le (by rw [hn]; simp only [maxPath]; omega)
    have := hcat' d (by rw [ht, List.length_append, hn]; simp only [maxPath]; omega)
    rw [ht] at this
    exact this
  · rintro rfl
    decide

theorem getLogFname_ub_iff (tmpdir : Option Bytes) : getLogFname tmpdir = .ub ↔ ∃ d, tmpdir = some d ∧ 238 ≤ d.length := by
  obtain ⟨h1, h2, h3⟩ := C59_log_path tmpdir
  constructor
  · intro h
    cases tmpdir with
    | none => rw [h3 rfl] at h; simp at h
    | some d =>
      refine ⟨d, rfl, ?_⟩
      by_cases hl : d.length < 238
      · rw [h2 d rfl hl] at h; simp at h
      · omega
  · rintro ⟨d, rfl, hl⟩
    exact h1 d rfl hl

theorem overruns_iff (tmpdir : Option Bytes) (s : State) : overruns tmpdir s = true ↔
    s.logFile = none ∧ ∃ d, tmpdir = some d ∧ 238 ≤ d.length := by
  rw [← getLogFname_ub_iff]
  unfold overruns
  cases getLogFname tmpdir <;> simp

example : ∃ d : Bytes, getLogFname (some d) = .ub ∧ d.length = 238 := ⟨List.replicate 238 65, by decide +kernel, by decide +kernel⟩

/-- **C59**, on Windows: the path is right exactly if there is a directory for temporary files with a name of fewer than 244
    bytes. -/
theorem C59_log_path_windows (tempPath : Option Bytes) :
    (∀ d, tempPath = some d → 244 ≤ d.length → getLogFnameWin tempPath = .ub)
    ∧ (∀ d, tempPath = some d → d.length < 244 → getLogFnameWin tempPath = .ok (d ++ b!"open-license.log"))
    ∧ (tempPath = none → getLogFnameWin tempPath = .ub) := by
  have hn : logNameWin.length = 16 := by decide
  have hcat : ∀ d : Bytes, ¬ (d ++ logNameWin.take (maxPathWin - d.length)).length + 1 ≤ maxPathWin →
      strncat d logNameWin (maxPathWin - d.length) maxPathWin = .ub := fun d h => if_neg h
  have hcat' : ∀ d : Bytes, (d ++ logNameWin.take (maxPathWin - d.length)).length + 1 ≤ maxPathWin →
      strncat d logNameWin (maxPathWin - d.length) maxPathWin = .ok (d ++ logNameWin.take (maxPathWin - d.length)) :=
    fun d h => if_pos h
  have hin : ∀ d : Bytes, d.length < maxPathWin → getLogFnameWin (some d) = strncat d logNameWin (maxPathWin - d.length) maxPathWin :=
    fun d h => if_pos h
  have hout : ∀ d : Bytes, ¬ d.length < maxPathWin → getLogFnameWin (some d) = .ub := fun d h => if_neg h
  refine ⟨?_, ?_, ?_⟩
  · rintro d rfl hl
    by_cases h : d.length < maxPathWin
    · rw [hin d h]
      refine hcat _ (fun hlen => ?_)
      simp only [List.length_append, List.length_take, hn, maxPathWin] at hlen h
      omega
    · exact hout d h
  · rintro d rfl hl
    rw [hin d (by simp only [maxPathWin]; omega)]
    have ht : logNameWin.take (maxPathWin - d.length) = logNameWin :=
      List.take_of_length_le (by rw [hn]; simp only [maxPathWin]; omega)
    have := hcat' d (by rw [ht, List.length_append, hn]; simp only [maxPathWin]; omega)
    rw [ht] at this
    exact this
  · rintro rfl
    rfl

example : getLogFnameWin (some (b!"C:\\Temp\\")) = .ok (b!"C:\\Temp\\open-license.log") := by decide

/-! ## Histories -/

namespace Spec

/-- A time of the day as `strftime` writes it: at most 26 bytes even for the largest year, without `%`. -/
def PlainTime (t : Bytes) : Prop := t.length ≤ 26 ∧ 37 ∉ t

/-- `vfprintf` copies what precedes the format if there is no `%` in it. -/
def CopiesPlain (e : Env) : Prop := ∀ pre f, 37 ∉ pre → e.printf (pre ++ f) = pre ++ e.printf f

/-- The path of the log file. -/
def logPath (e : Env) : Bytes := (e.tmpdir.getD (b!"/tmp")) ++ b!"/open-license.log"

/-- A use that behaves. -/
def Fine : Op → Prop
  | .log e _ => PlainTime e.now ∧ CopiesPlain e ∧ ∀ d, e.tmpdir = some d → d.length < 238
  | .shutdown => True

/-- What is logged, line by line, and to which file: `cur` is the file that is open. -/
def lines : Option Bytes → List Op → List (Bytes × Bytes)
  | _, [] => []
  | some p, .log e f :: ops => (p, e.now ++ e.printf f) :: lines (some p) ops
  | none, .log e f :: ops =>
    if e.canOpen (logPath e) then (logPath e, e.now ++ e.printf f) :: lines (some (logPath e)) ops else lines none ops
  | _, .shutdown :: ops => lines none ops

end Spec
open Spec

theorem logPath_ok {e : Env} (h : ∀ d, e.tmpdir = some d → d.length < 238) : getLogFname e.tmpdir = .ok (logPath e) := by
  obtain ⟨_, h2, h3⟩ := C59_log_path e.tmpdir
  unfold logPath
  cases ht : e.tmpdir with
  | none => rw [ht] at h3; exact h3 rfl
  | some d => rw [ht] at h2; exact h2 d rfl (h d ht)

theorem write_ok {e : Env} {f : Bytes} (s : State) (p : Bytes) (h1 : PlainTime e.now) (h2 : CopiesPlain e) :
    write e f s p = .ok (s.append p (e.now ++ e.printf f)) := by
  have := h1.1
  unfold write
  rw [if_pos (by omega), h2 _ _ h1.2]

/-- **C59**: with the log file open, an entry is written exactly if the time takes at most 63 bytes, whatever the message; longer
    times overrun the array for the entry. -/
theorem C59_entry_fits (e : Env) (f : Bytes) (s : State) (p : Bytes) (hp : s.logFile = some p) :
    (e.now.length ≤ 63 → log e f s = .ok (s.append p (e.printf (e.now ++ f)))) ∧ (64 ≤ e.now.length → log e f s = .ub) := by
  unfold log
  rw [hp]
  unfold write
  exact ⟨fun h => if_pos (by omega), fun h => if_neg (by omega)⟩

example : ∃ (e : Env) (s : State), s.logFile = some (b!"/tmp/open-license.log") ∧ e.now.length = 19 :=
  ⟨⟨none, fun _ => true, b!"2024-01-01 10:00:00", fun f => f⟩, ⟨some (b!"/tmp/open-license.log"), fun _ => []⟩, rfl, by decide⟩

/-- **C59**: in every history of well-behaved uses nothing goes wrong, and every file gets exactly the lines logged to it, in
    order: a file stays the log file until shutdown, whatever becomes of TMPDIR; nothing is written while it cannot be
    opened. -/
theorem C59_history (ops : List Op) : ∀ (s : State), (∀ o ∈ ops, Fine o) → ∃ s', run s ops = .ok s'
    ∧ ∀ q, s'.files q = s.files q ++ ((lines s.logFile ops).filter (fun l => l.1 = q)).flatMap (·.2) := by
  induction ops with
  | nil => intro s _; exact ⟨s, rfl, fun q => by cases h : s.logFile <;> simp [lines]⟩
  | cons o ops ih =>
    intro s hf
    have hf' : ∀ o ∈ ops, Fine o := fun o ho => hf o (by simp [ho])
    cases o with
    | shutdown =>
      obtain ⟨s', h1, h2⟩ := ih (Logger.shutdown s) hf'
      refine ⟨s', by rw [run]; exact h1, fun q => ?_⟩
      rw [h2 q]
      cases h : s.logFile <;> rfl
    | log e f =>
      obtain ⟨g1, g2, g3⟩ := hf _ List.mem_cons_self
      have key : ∀ (s0 : State) (p : Bytes), s0.logFile = some p → ∃ s', run (s0.append p (e.now ++ e.printf f)) ops = .ok s'
          ∧ ∀ q, s'.files q = s0.files q
              ++ (((p, e.now ++ e.printf f) :: lines (some p) ops).filter (fun l => l.1 = q)).flatMap (·.2) := by
        intro s0 p hp
        obtain ⟨s', h1, h2⟩ := ih (s0.append p (e.now ++ e.printf f)) hf'
        refine ⟨s', h1, fun q => ?_⟩
        rw [h2 q]
        have : (s0.append p (e.now ++ e.printf f)).logFile = some p := hp
        rw [this]
        simp only [State.append, List.filter_cons]
        by_cases hq : p = q
        · subst hq; simp
        · have : ¬ q = p := fun h => hq h.symm
          simp [hq, this]
      unfold run log
      cases hl : s.logFile with
      | some p =>
        obtain ⟨s', h1, h2⟩ := key s p hl
        refine ⟨s', ?_, fun q => ?_⟩
        · simp only [write_ok s p g1 g2, Outcome.ok_bind]; exact h1
        · rw [h2 q]; rfl
      | none =>
        simp only [logPath_ok g3, Outcome.ok_bind]
        by_cases hc : e.canOpen (logPath e) = true
        · obtain ⟨s', h1, h2⟩ := key { s with logFile := some (logPath e) } (logPath e) rfl
          refine ⟨s', ?_, fun q => ?_⟩
          · rw [if_pos hc, write_ok _ _ g1 g2]; exact h1
          · rw [h2 q]; simp only [lines, hc, if_true]
        · obtain ⟨s', h1, h2⟩ := ih s hf'
          refine ⟨s', ?_, fun q => ?_⟩
          · rw [if_neg hc]; exact h1
          · rw [h2 q, hl]; simp only [lines, hc, if_false]; rfl

/-- A history: the log file cannot be opened at first; TMPDIR changes while it is open; after a shutdown the new one is used. -/
def sampleOps : List Op :=
  let e : Env := ⟨some (b!"/a"), fun _ => true, b!"2024-01-01 10:00:00", fun f => f⟩
  [.log { e with canOpen := fun _ => false } (b!"0"), .log e (b!"1"), .log { e with tmpdir := some (b!"/b") } (b!"2"), .shutdown,
    .log { e with tmpdir := some (b!"/b") } (b!"3")]

example : (∀ o ∈ sampleOps, Fine o) ∧ lines none sampleOps =
    [(b!"/a/open-license.log", b!"2024-01-01 10:00:001"), (b!"/a/open-license.log", b!"2024-01-01 10:00:002"),
     (b!"/b/open-license.log", b!"2024-01-01 10:00:003")] := by
  refine ⟨?_, by decide⟩
  intro o ho
  simp only [sampleOps, List.mem_cons, List.not_mem_nil, or_false] at ho
  rcases ho with rfl | rfl | rfl | rfl | rfl
  all_goals first
    | trivial
    | exact ⟨⟨by decide, by decide⟩, fun _ _ _ => rfl, by rintro d h; simp only [Option.some.injEq] at h; subst h; decide⟩

end Licensecc.Logger
