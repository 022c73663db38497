import Verif.Props.Threads
/-!
# C86: the library remembers nothing

The statics of the library are the cells of `Shared` (Model/Threads): the log file, the flag that OpenSSL is initialised, the buffers of
the C library.  Whatever earlier calls - made at other times, with other files, on other hardware - have left there, a call returns what it
returns as the first call of a fresh process.  In particular no call notices that the clock has been set back.
-/
namespace Licensecc.Threads
open Licensecc.Spec

theorem aloneAll_append {before : List Call} {bs : List Result} (h : before.map Call.alone = bs.map .ok) (c : Call) :
    aloneAll (before ++ [c]) = (do return bs ++ [← c.alone]) := by
  induction before generalizing bs with
  | nil =>
    cases bs with
    | nil => cases hc : c.alone <;> simp [aloneAll, hc]
    | cons b bs => simp at h
  | cons a before ih =>
    cases bs with
    | nil => simp at h
    | cons b bs =>
      simp only [List.map_cons, List.cons.injEq] at h
      rw [List.cons_append, aloneAll, h.1, ih h.2]
      cases hc : c.alone <;> simp

/-- **C86**: after any calls that returned, made with any surroundings, a call ends as it ends alone in a fresh process: with the same
    result, the same exception or the same undefined behaviour.  It can always go on to its end. -/
theorem C86_no_memory (s : Shared) (before : List Call) (bs : List Result) (c : Call)
    (hlog : ∀ x ∈ before ++ [c], ∀ d, x.view.sys.getenv (b!"TMPDIR") = some d → d.length < 238)
    (hb : before.map Call.alone = bs.map .ok) (ts : Nat → Prog (List Result)) (i : Nat) (hi : ts i = threadP (before ++ [c]))
    (ho : ∀ j, j ≠ i → ∃ o, ts j = .ret o) :
    (∃ s' ts' o, Steps s ts s' ts' ∧ ts' i = .ret o)
    ∧ ∀ s' ts' o, Steps s ts s' ts' → ts' i = .ret o →
      (∀ r, c.alone = .ok r → o = .ok (bs ++ [r])) ∧ (∀ e, c.alone = .throw e → o = .throw e) ∧ (c.alone = .ub → o = .ub) := by
  have hres : (threadP (before ++ [c])).result s = aloneAll (before ++ [c]) := gives_thread _ hlog s
  refine ⟨⟨_, _, _, run_on i _ s ts hi, by simp; rfl⟩, fun s' ts' o h hd => ?_⟩
  have := (only_one h ho).2.1
  rw [hd, hi, hres, aloneAll_append hb] at this
  change o = _ at this
  subst this
  refine ⟨fun r hr => ?_, fun e he => ?_, fun hu => ?_⟩
  · rw [hr]; rfl
  · rw [he]; rfl
  · rw [hu]; rfl

/-- The computer of `freeCall` at time `now`. -/
def freeCallAt (now : Int) : Call :=
  .acquire sampleConfig ⟨{ freeLinux with clock := fun _ => now }, fun _ => true⟩ (some sampleCaller) none none

/-- 2031-01-01 in the calendar of `sampleWorld`: the licence of `freeCall` has expired. -/
def tooLate : Int := 86400 * (372 * 2031 + 31 * 1 + 1)

theorem freeCallAt_returns (now : Int) (t : EventType)
    (h : retOf (acquire sampleConfig { freeLinux with clock := fun _ => now }.world (some sampleCaller) none none) = some t) :
    ∃ r : AcquireResult, (freeCallAt now).alone = .ok (.acquired r) ∧ r.ret = t := by
  obtain ⟨res, h1, h2⟩ := retOf_ok h
  exact ⟨res, by simp only [freeCallAt, Call.alone]; rw [h1]; rfl, h2⟩

/-- **C86**: a program that has been told that the licence is expired is told that it is valid as soon as the clock is set back; whatever
    the static variables hold at first. -/
theorem C86_clock_set_back (s s' : Shared) (ts ts' : Nat → Prog (List Result)) (i : Nat) (o : Outcome (List Result))
    (hi : ts i = threadP [freeCallAt sampleNow, freeCallAt tooLate, freeCallAt sampleNow]) (ho : ∀ j, j ≠ i → ∃ o, ts j = .ret o)
    (h : Steps s ts s' ts') (hd : ts' i = .ret o) :
    returnedBy (ts' i) = [some .licenseOk, some .productExpired, some .licenseOk] := by
  obtain ⟨r1, h1, e1⟩ := freeCallAt_returns sampleNow .licenseOk (by decide +kernel)
  obtain ⟨r2, h2, e2⟩ := freeCallAt_returns tooLate .productExpired (by decide +kernel)
  have := ((C86_no_memory s [freeCallAt sampleNow, freeCallAt tooLate] [.acquired r1, .acquired r2] (freeCallAt sampleNow)
    (by intro x hx d hd'; simp at hx; rcases hx with rfl | rfl | rfl <;> cases hd') (by simp [h1, h2]) ts i hi ho).2 s' ts' o h hd).1 _ h1
  rw [hd, this]
  simp [returnedBy, e1, e2]

end Licensecc.Threads
