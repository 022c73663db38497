import Verif.Props.LogTextWin
import Verif.Props.Logger
import Verif.Model.LoggerWin
/-!
# C59: the log file on Windows
-/
namespace Licensecc.Logger
open LogText (textMode writeWin logWin historyWin)

namespace Spec

/-- The path of the log file on Windows, in the directory `d` (which ends with a backslash). -/
def winPath (d : Bytes) : Bytes := d ++ b!"open-license.log"

/-- Every line end is two bytes in the file. -/
inductive InFile : Bytes → Bytes → Prop
  | nil : InFile [] []
  | newline {t u : Bytes} : InFile t u → InFile (10 :: t) (13 :: 10 :: u)
  | other {c : UInt8} {t u : Bytes} : c ≠ 10 → InFile t u → InFile (c :: t) (c :: u)

/-- A use that behaves: the directory for temporary files is found, and its name has fewer than 244 bytes. -/
def FineWin : Op → Prop
  | .log e _ => PlainTime e.now ∧ CopiesPlain e ∧ ∃ d, e.tmpdir = some d ∧ d.length < 244
  | .shutdown => True

/-- What is logged, line by line, and to which file: `cur` is the file that is open. -/
inductive LinesWin : Option Bytes → List Op → List (Bytes × Bytes) → Prop
  | done {cur : Option Bytes} : LinesWin cur [] []
  | opened {p : Bytes} {e : Env} {f u : Bytes} {ops : List Op} {ls : List (Bytes × Bytes)} : InFile (e.now ++ e.printf f) u →
      LinesWin (some p) ops ls → LinesWin (some p) (.log e f :: ops) ((p, u) :: ls)
  | opens {d : Bytes} {e : Env} {f u : Bytes} {ops : List Op} {ls : List (Bytes × Bytes)} : e.tmpdir = some d → e.canOpen (winPath d) = true →
      InFile (e.now ++ e.printf f) u → LinesWin (some (winPath d)) ops ls → LinesWin none (.log e f :: ops) ((winPath d, u) :: ls)
  | cannot {d : Bytes} {e : Env} {f : Bytes} {ops : List Op} {ls : List (Bytes × Bytes)} : e.tmpdir = some d → e.canOpen (winPath d) = false →
      LinesWin none ops ls → LinesWin none (.log e f :: ops) ls
  | shutdown {cur : Option Bytes} {ops : List Op} {ls : List (Bytes × Bytes)} : LinesWin none ops ls → LinesWin cur (.shutdown :: ops) ls

end Spec
open Spec

theorem inFile_iff (t u : Bytes) : InFile t u ↔ textMode t = u := by
  constructor
  · intro h
    induction h with
    | nil => rfl
    | newline _ ih => rw [textMode, if_pos rfl, ih]
    | other hc _ ih => rw [textMode, if_neg hc, ih]
  · rintro rfl
    induction t with
    | nil => exact .nil
    | cons c t ih =>
      rw [textMode]
      split
      · rename_i hc; subst hc; exact .newline ih
      · rename_i hc; exact .other hc ih

/-- C59, on Windows: with the log file open, an entry is written exactly if the time takes at most 63 bytes, whatever the message. -/
theorem C59_entry_fits_windows (tempPath : Option Bytes) (e : Env) (f : Bytes) (s : State) (p : Bytes) (hp : s.logFile = some p) :
    (e.now.length ≤ 63 → ∃ u, InFile (e.printf (e.now ++ f)) u ∧ logWin tempPath e f s = .ok (s.append p u))
    ∧ (64 ≤ e.now.length → logWin tempPath e f s = .ub) := by
  unfold logWin
  rw [hp]
  unfold writeWin
  exact ⟨fun h => ⟨_, (inFile_iff _ _).mpr rfl, if_pos (by omega)⟩, fun h => if_neg (by omega)⟩

theorem writeWin_ok {e : Env} {f : Bytes} (s : State) (p : Bytes) (h1 : Spec.PlainTime e.now) (h2 : Spec.CopiesPlain e) :
    writeWin e f s p = .ok (s.append p (textMode (e.now ++ e.printf f))) := by
  have := h1.1
  unfold writeWin
  rw [if_pos (by omega), h2 _ _ h1.2]

/-- C59, on Windows: in every history of well-behaved uses nothing goes wrong, and every file gets exactly the lines logged to it, in order. -/
theorem C59_history_windows (ops : List Op) : ∀ (s : State), (∀ o ∈ ops, FineWin o) → ∃ s' ls, historyWin s ops = .ok s'
    ∧ LinesWin s.logFile ops ls ∧ ∀ q, s'.files q = s.files q ++ (ls.filter (fun l => l.1 = q)).flatMap (·.2) := by
  induction ops with
  | nil => intro s _; exact ⟨s, [], rfl, .done, fun q => by simp⟩
  | cons o ops ih =>
    intro s hf
    have hf' : ∀ o ∈ ops, FineWin o := fun o ho => hf o (by simp [ho])
    cases o with
    | shutdown =>
      obtain ⟨s', ls, h1, h2, h3⟩ := ih (shutdown s) hf'
      exact ⟨s', ls, by rw [historyWin]; exact h1, .shutdown h2, h3⟩
    | log e f =>
      obtain ⟨g1, g2, d, g3, g4⟩ := hf _ List.mem_cons_self
      have key : ∀ (s0 : State) (p : Bytes), s0.logFile = some p → ∃ s' ls, historyWin (s0.append p (textMode (e.now ++ e.printf f))) ops = .ok s'
          ∧ LinesWin (some p) ops ls
          ∧ ∀ q, s'.files q = s0.files q ++ (((p, textMode (e.now ++ e.printf f)) :: ls).filter (fun l => l.1 = q)).flatMap (·.2) := by
        intro s0 p hp
        obtain ⟨s', ls, h1, h2, h3⟩ := ih (s0.append p (textMode (e.now ++ e.printf f))) hf'
        have hq : (s0.append p (textMode (e.now ++ e.printf f))).logFile = some p := hp
        rw [hq] at h2
        refine ⟨s', ls, h1, h2, fun q => ?_⟩
        rw [h3 q]
        simp only [State.append, List.filter_cons]
        by_cases hq : p = q
        · subst hq; simp
        · have : ¬ q = p := fun h => hq h.symm
          simp [hq, this]
      unfold historyWin logWin
      cases hl : s.logFile with
      | some p =>
        obtain ⟨s', ls, h1, h2, h3⟩ := key s p hl
        refine ⟨s', (p, textMode (e.now ++ e.printf f)) :: ls, ?_, .opened ((inFile_iff _ _).mpr rfl) h2, h3⟩
        simp only [writeWin_ok s p g1 g2, Outcome.ok_bind]; exact h1
      | none =>
        have hp : getLogFnameWin e.tmpdir = .ok (winPath d) := (C59_log_path_windows e.tmpdir).2.1 d g3 g4
        simp only [hp, Outcome.ok_bind]
        by_cases hc : e.canOpen (winPath d) = true
        · obtain ⟨s', ls, h1, h2, h3⟩ := key { s with logFile := some (winPath d) } (winPath d) rfl
          refine ⟨s', (winPath d, textMode (e.now ++ e.printf f)) :: ls, ?_, .opens g3 hc ((inFile_iff _ _).mpr rfl) h2, h3⟩
          rw [if_pos hc, writeWin_ok _ _ g1 g2]; exact h1
        · obtain ⟨s', ls, h1, h2, h3⟩ := ih s hf'
          rw [hl] at h2
          refine ⟨s', ls, ?_, .cannot g3 (by simpa using hc) h2, h3⟩
          rw [if_neg hc]; exact h1

/-- A history: an entry with a line end, another while the directory has changed, a shutdown, and one behind it. -/
def sampleWinOps : List Op :=
  let e : Env := ⟨some (b!"C:\\T\\"), fun _ => true, b!"2024-01-01 10:00:00", fun f => f⟩
  [.log e (b!"1\n"), .log { e with tmpdir := some (b!"D:\\") } (b!"2"), .shutdown, .log { e with tmpdir := some (b!"D:\\") } (b!"3")]

example : ∀ o ∈ sampleWinOps, FineWin o := by
  intro o ho
  simp only [sampleWinOps, List.mem_cons, List.not_mem_nil, or_false] at ho
  rcases ho with rfl | rfl | rfl | rfl
  all_goals first
    | trivial
    | exact ⟨⟨by decide, by decide⟩, fun _ _ _ => rfl, _, rfl, by decide⟩

example : (match historyWin ⟨none, fun _ => []⟩ sampleWinOps with
    | .ok s => s.files (b!"C:\\T\\open-license.log")
    | _ => []) = b!"2024-01-01 10:00:001\r\n2024-01-01 10:00:002" := by decide +kernel

end Licensecc.Logger
