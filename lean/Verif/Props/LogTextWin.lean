import Verif.Spec.LogTextWin
import Verif.Props.LogText
import Verif.Props.Smbios
import Verif.Props.WinThreadsCells
/-!
# C83 on Windows
-/
namespace Licensecc.Win
open Licensecc.Spec LogText

/-- **C83**: the theorems about `acquire_license` and `identify_pc` apply to the library on Windows. -/
theorem C83_windows (l : Windows) (lib : Exn → Bytes) : Faithful (windowsHooks l lib) where
  verify _ _ := rfl
  adapters := rfl

theorem windows_logsFailures (l : Windows) (lib : Exn → Bytes) : LogsFailures (windowsHooks l lib) where
  verify _ _ _ := rfl
  adapters _ _ := rfl

theorem windows_logsOwnTexts (l : Windows) (lib : Exn → Bytes) : LogsOwnTexts (windowsHooks l lib) where
  verify d s e he := by cases (show e ∈ [] from he)
  adapters e he := by cases (show e ∈ [] from he)
  never ex := Threads.adapters_no_throw l.net ex

/-! ## acquire_license -/

theorem identifierLogged_win {l : Windows} {lib : Exn → Bytes} {s : Bytes} {es : List LogText.Entry}
    (h : Licensecc.Spec.IdentifierLogged (windowsHooks l lib) s es) : Spec.IdentifierLogged lib s es := by
  cases h with
  | equals h => exact .equals h
  | size h1 h2 => exact .size h1 h2
  | unsupported h1 h2 => exact .unsupported h1 h2
  | network h1 h2 _ => exact .known h1 (by omega)
  | @networkThrows _ e _ _ h3 => exact absurd h3 (Threads.adapters_no_throw l.net e)
  | disks h1 h2 _ => exact .known h1 (by omega)
  | disksThrow _ _ h3 => cases (show Outcome.ok (getDiskInfos l.drives) = .throw _ from h3)

theorem noName (l : Windows) (lib : Exn → Bytes) : ((windowsHooks l lib).world.moduleName = none) = (l.exe = none) := by
  show (getModuleName l.exe = none) = _
  unfold getModuleName
  cases l.exe <;> simp

/-- **C83**: if `acquire_license` returns on Windows, it logged, in this order: that the name of the executable could not be determined,
    if licences are looked for beside it; and text by text, if signature, magic number and dates are in order, what is wrong with a
    hardware identifier that is none; and nothing else: no refused signature, no list of adapters that could not be had. -/
theorem C83_windows_acquire {cfg : Config} {l : Windows} {lib : Exn → Bytes} {caller : Option Caller} {hint : Option LicenseLocation}
    {out : Option LicInfo} {res : AcquireResult} {f : Bytes} (hf : FeatureIs cfg caller f)
    (hx : (LogText.acquire cfg (windowsHooks l lib) caller hint out).result = .ok res)
    (hbig : ∀ p ∈ located cfg l.world hint, ∀ k ≤ res.ticks, ∀ s, LooksAt cfg l.world (magicOf caller) f p.2 (l.clock k) s →
      (identifierText s).length < 2 ^ 63) :
    ∃ es, Spec.TextsLogged cfg l lib (magicOf caller) f res.ticks (located cfg l.world hint) es
      ∧ (LogText.acquire cfg (windowsHooks l lib) caller hint out).entries
        = (if cfg.nearModule = true ∧ l.exe = none then [.moduleName] else []) ++ es := by
  obtain ⟨es, h1, h2⟩ := C83_acquire (C83_windows l lib) hf hx hbig
  refine ⟨es, ?_, ?_⟩
  · have key : ∀ ps es, Licensecc.Spec.TextsLogged cfg (windowsHooks l lib) (magicOf caller) f res.ticks ps es →
        Spec.TextsLogged cfg l lib (magicOf caller) f res.ticks ps es := by
      intro ps es h
      induction h with
      | nil => exact .nil
      | @cons src text ps k _ _ hk h _ ih =>
        refine .cons hk ?_ ih
        cases h with
        | none h => exact .unlooked fun ⟨s, hs⟩ => h hs.complete
        | signature _ _ _ h => exact .unlooked h
        | @identifier _ _ _ es _ _ h4 h5 => exact .looked h4 (identifierLogged_win h5)
    exact key _ _ h1
  · rw [h2]
    simp only [noName]

/-- **C83**: on Windows, if a licence is accepted and its text is the only one that is located, nothing is logged but that the name of the
    executable could not be determined. -/
theorem C83_windows_accepted {cfg : Config} {l : Windows} {lib : Exn → Bytes} {caller : Option Caller} {hint : Option LicenseLocation}
    {out : Option LicInfo} {res : AcquireResult} (hx : (LogText.acquire cfg (windowsHooks l lib) caller hint out).result = .ok res)
    (hok : res.ret = .licenseOk) (hone : (located cfg l.world hint).length = 1) :
    (LogText.acquire cfg (windowsHooks l lib) caller hint out).entries
      = if cfg.nearModule = true ∧ l.exe = none then [.moduleName] else [] := by
  rw [accepted_silent (C83_windows l lib) (windows_logsFailures l lib) hx hok hone]
  simp only [noName]

/-- **C83**: whatever is in the licences, on Windows an entry logged by `acquire_license` is one line, unless the standard library's own
    texts contain line ends. -/
theorem C83_windows_one_line {cfg : Config} {l : Windows} {lib : Exn → Bytes} {caller : Option Caller} {hint : Option LicenseLocation}
    {out : Option LicInfo} {res : AcquireResult} {f : Bytes} (hf : FeatureIs cfg caller f)
    (hx : (LogText.acquire cfg (windowsHooks l lib) caller hint out).result = .ok res)
    (hbig : ∀ p ∈ located cfg l.world hint, ∀ k ≤ res.ticks, ∀ s, LooksAt cfg l.world (magicOf caller) f p.2 (l.clock k) s →
      (identifierText s).length < 2 ^ 63)
    (hlib : ∀ e, 10 ∉ lib e) {dir : Bytes} {x : Stamp} {e : LogText.Entry} {t : Bytes}
    (he : e ∈ (LogText.acquire cfg (windowsHooks l lib) caller hint out).entries) (ht : LogLine dir x e t)
    (h1 : 10 ∉ x.now) (h2 : 10 ∉ dir) (h3 : 10 ∉ x.errno) : t.count 10 = 1 :=
  one_line (C83_windows l lib) (windows_logsOwnTexts l lib) hf hx hbig hlib he ht h1 h2 h3

/-! ## identify_pc -/

theorem bind_no_throw {α β : Type} {x : Outcome α} {f : α → Outcome β} (h1 : ∀ e, x ≠ .throw e) (h2 : ∀ a e, f a ≠ .throw e) (e : Exn) :
    (x >>= f) ≠ .throw e := by
  cases x with
  | ok a => exact h2 a e
  | throw t => exact absurd rfl (h1 t)
  | ub => simp

theorem headerLength_no_throw (x : Bytes) (e : Exn) : headerLength x ≠ .throw e := by
  unfold headerLength; split <;> simp
theorem behind_no_throw (x : Bytes) (n : Nat) (e : Exn) : behind x n ≠ .throw e := by
  unfold behind; split <;> simp
theorem skipStrings_no_throw : ∀ (x : Bytes) (b : Bool) (e : Exn), skipStrings x b ≠ .throw e
  | [], b, e => by simp [skipStrings]
  | c :: r, b, e => by
    rw [skipStrings]
    split
    · split
      · exact skipStrings_no_throw r _ e
      · simp
    · exact skipStrings_no_throw r _ e
theorem takeStrings_no_throw : ∀ (x cur : Bytes) (e : Exn), takeStrings x cur ≠ .throw e
  | [], b, e => by simp [takeStrings]
  | c :: r, b, e => by
    rw [takeStrings]
    split
    · split
      · simp
      · exact bind_no_throw (takeStrings_no_throw r []) (by simp) e
    · exact takeStrings_no_throw r _ e
theorem skip_no_throw (x : Bytes) (e : Exn) : skip x ≠ .throw e := by
  unfold skip
  refine bind_no_throw (headerLength_no_throw x) (fun n => bind_no_throw (behind_no_throw x n) fun p e => ?_) e
  cases p with
  | nil => simp
  | cons c r => dsimp only; split
                · exact behind_no_throw _ _ _
                · exact skipStrings_no_throw _ _ _
theorem extractStrings_no_throw (x : Bytes) (e : Exn) : extractStrings x ≠ .throw e := by
  unfold extractStrings
  refine bind_no_throw (headerLength_no_throw x) (fun n => bind_no_throw (behind_no_throw x n) fun p e => ?_) e
  cases p with
  | nil => simp
  | cons c r => dsimp only; split
                · simp
                · exact takeStrings_no_throw _ _ _
theorem feedLoop_no_throw : ∀ (n : Nat) (x : Bytes) (e : Exn), feedLoop n x ≠ .throw e
  | 0, x, e => by simp [feedLoop]
  | n + 1, x, e => by
    rw [feedLoop]
    split
    · simp
    · exact bind_no_throw (skip_no_throw x) (fun y => bind_no_throw (feedLoop_no_throw n y) (by simp)) e
theorem fieldAt_no_throw (x : Bytes) (i : Nat) (e : Exn) : fieldAt x i ≠ .throw e := by
  unfold fieldAt; split <;> simp
theorem stringAt_no_throw (x : List Bytes) (i : UInt8) (e : Exn) : stringAt x i ≠ .throw e := by
  unfold stringAt; split <;> simp
theorem readStructure_no_throw (d : WinDmi) (x : Bytes) (e : Exn) : readStructure d x ≠ .throw e := by
  unfold readStructure
  refine bind_no_throw (extractStrings_no_throw x) (fun ss => bind_no_throw (fieldAt_no_throw x 0) fun ty =>
    bind_no_throw (headerLength_no_throw x) fun n e => ?_) e
  split
  · split
    · simp
    · refine bind_no_throw (fieldAt_no_throw _ _) (fun i e => ?_) e
      split
      · exact bind_no_throw (stringAt_no_throw _ _) (by simp) e
      · simp
  · split
    · split
      · simp
      · refine bind_no_throw (fieldAt_no_throw _ _) (fun i e => ?_) e
        split
        · exact bind_no_throw (stringAt_no_throw _ _) (by simp) e
        · simp
    · split
      · split
        · simp
        · refine bind_no_throw (fieldAt_no_throw _ _) (fun i e => ?_) e
          have hlast : ∀ d' : WinDmi, ∀ e, (fieldAt x 35 >>= fun c => Outcome.ok { d' with cores := c.toNat }) ≠ .throw e :=
            fun d' e => bind_no_throw (fieldAt_no_throw _ _) (by simp) e
          split
          · exact bind_no_throw (bind_no_throw (stringAt_no_throw _ _) (by simp)) (fun d' => hlast d') e
          · exact hlast d e
      · split
        · split
          · simp
          · refine bind_no_throw (fieldAt_no_throw _ _) (fun i e => ?_) e
            split
            · refine bind_no_throw (fieldAt_no_throw _ _) (fun j e => ?_) e
              split
              · exact bind_no_throw (stringAt_no_throw _ _) (fun s => bind_no_throw (stringAt_no_throw _ _) (by simp)) e
              · simp
            · simp
        · simp
theorem readStructures_no_throw : ∀ (xs : List Bytes) (d : WinDmi) (e : Exn), readStructures d xs ≠ .throw e
  | [], d, e => by simp [readStructures]
  | x :: xs, d, e => by
    rw [readStructures]
    exact bind_no_throw (readStructure_no_throw d x) (fun d' => readStructures_no_throw xs d') e

theorem execSummary_no_throw (h : WinHost) (e : Exn) : h.execSummary ≠ .throw e := by
  unfold WinHost.execSummary WinHost.mkEnv winDmiInfo
  refine bind_no_throw (bind_no_throw (fun e => ?_) (by simp)) (by simp) e
  split
  · simp
  · dsimp only
    split
    · simp
    · exact bind_no_throw (feedLoop_no_throw _ _) (fun hs => readStructures_no_throw hs _) e
  · simp

theorem sought_win {l : Windows} {lib : Exn → Bytes} {n : Int} {es : List LogText.Entry} {w : Option Bytes}
    (h : Licensecc.Spec.Sought (windowsHooks l lib) n es w) : es = [] ∧ Spec.Sought l n w := by
  have hexec : (windowsHooks l lib).world.machine.exec = l.host.execSummary := rfl
  cases h with
  | network h1 h2 => exact ⟨rfl, .found (by grind) h2⟩
  | networkNone h1 _ h3 h4 => exact ⟨rfl, .none (by grind) h3 h4⟩
  | @networkThrows _ e _ h3 => exact absurd h3 (Threads.adapters_no_throw l.net e)
  | disk h => exact ⟨rfl, .found (by decide) h⟩
  | diskNone _ h => exact ⟨rfl, .none (t := decimal 2) (by decide) h (decimal_text 2)⟩
  | diskThrows h3 => cases (show Outcome.ok (getDiskInfos l.drives) = .throw _ from h3)
  | bareMetal h1 h2 h3 => exact ⟨rfl, .bareMetal h1 h2 h3⟩
  | bareMetalNone h1 h2 _ h3 => exact ⟨rfl, .bareMetalNone h1 h2 h3⟩
  | bareMetalThrows _ _ h3 => cases (show Outcome.ok (getDiskInfos l.drives) = .throw _ from h3)
  | virtual h1 h2 h3 =>
    rcases h2 with h2 | h2
    · exact absurd h2.1 (C62_never_container l.host h1).1
    · exact ⟨rfl, .virtual h1 h2.1 h2.2 h3⟩
  | virtualNone h1 h2 _ h3 =>
    rcases h2 with h2 | h2
    · exact absurd h2.1 (C62_never_container l.host h1).1
    · exact ⟨rfl, .virtualNone h1 h2.1 h2.2 h3⟩
  | @virtualThrows _ e _ _ h3 => exact absurd h3 (Threads.adapters_no_throw l.net e)
  | dockerOrCloud h1 h2 =>
    rcases h2 with h2 | h2
    · exact absurd h2.1 (C62_never_container l.host h1).1
    · exact ⟨rfl, .cloud h1 h2.1 h2.2⟩
  | @unknownEnvironment e h => exact absurd h (execSummary_no_throw l.host e)
  | other h => exact ⟨rfl, .other h⟩

/-- **C83**: if `identify_pc` returns on Windows, it logged a value of the environment variable that names no strategy and, exactly if it
    returns no identifier, the reason; nothing else; and without enough memory for an identifier nothing. -/
theorem C83_windows_identify {l : Windows} {lib : Exn → Bytes} {strategy : Int} {buf : Option Bytes} {size : Nat} {r : IdentifyResult}
    (hr : (LogText.identifyPc (windowsHooks l lib) strategy buf size).result = .ok r) :
    if buf.isSome ∧ 19 < size then
      Spec.IdentifyLogged l strategy (LogText.identifyPc (windowsHooks l lib) strategy buf size).entries r.ret
    else (LogText.identifyPc (windowsHooks l lib) strategy buf size).entries = [] := by
  have h := C83_identify (C83_windows l lib) hr
  by_cases hb : buf.isSome ∧ 19 < size
  · rw [if_pos hb] at h ⊢
    generalize (LogText.identifyPc (windowsHooks l lib) strategy buf size).entries = es at h ⊢
    generalize r.ret = b at h ⊢
    cases h with
    | found h1 h2 h3 =>
      obtain ⟨rfl, h4⟩ := sought_win h3
      rw [List.append_nil]
      exact .found h1 h2 h4
    | failed h1 h2 h3 =>
      obtain ⟨rfl, h4⟩ := sought_win h3
      rw [List.append_nil]
      exact .failed h1 h2 h4
  · rw [if_neg hb] at h ⊢; exact h

/-! ## The file -/

theorem textMode_spec : ∀ t : Bytes, Spec.TextMode t (textMode t)
  | [] => .nil
  | c :: t => by
    rw [textMode]
    by_cases h : c = 10
    · rw [if_pos h, h]; exact .lineEnd (textMode_spec t)
    · rw [if_neg h]; exact .other h (textMode_spec t)

theorem textMode_append (t u : Bytes) : textMode (t ++ u) = textMode t ++ textMode u := by
  induction t with
  | nil => rfl
  | cons c t ih =>
    rw [List.cons_append, textMode, textMode, ih]
    split <;> simp

/-- **C83**: what the entries leave in the log file on Windows: if it is open, or can be opened in the directory for temporary files,
    exactly the texts of the entries, in order, with the line ends of text files; nothing else is written. -/
theorem C83_windows_file (dir : Bytes) (tempPath : Option Bytes) (p : Bytes) (es : List (Stamp × LogText.Entry)) : ∀ (s : Logger.State),
    (∀ x ∈ es, x.1.now.length ≤ 63 ∧ 37 ∉ x.1.now) →
    (s.logFile = some p ∨ s.logFile = none ∧ (∃ d, tempPath = some d ∧ d.length < 244 ∧ p = d ++ b!"open-license.log")
      ∧ ∀ x ∈ es, x.1.canOpen p = true) →
    ∃ s' text text', LogLines dir es text ∧ Spec.TextMode text text' ∧ runWin dir tempPath s es = .ok s'
      ∧ s'.files p = s.files p ++ text' ∧ ∀ q, q ≠ p → s'.files q = s.files q := by
  suffices H : ∀ (s : Logger.State),
      (∀ x ∈ es, x.1.now.length ≤ 63 ∧ 37 ∉ x.1.now) →
      (s.logFile = some p ∨ s.logFile = none ∧ (∃ d, tempPath = some d ∧ d.length < 244 ∧ p = d ++ b!"open-license.log")
        ∧ ∀ x ∈ es, x.1.canOpen p = true) →
      ∃ s' text, LogLines dir es text ∧ runWin dir tempPath s es = .ok s'
        ∧ s'.files p = s.files p ++ textMode text ∧ ∀ q, q ≠ p → s'.files q = s.files q by
    intro s h1 h2
    obtain ⟨s', text, g1, g2, g3, g4⟩ := H s h1 h2
    exact ⟨s', text, _, g1, textMode_spec text, g2, g3, g4⟩
  induction es with
  | nil => intro s _ _; exact ⟨s, [], .nil, rfl, by simp [textMode], fun _ _ => rfl⟩
  | cons x es ih =>
    intro s ht hs
    obtain ⟨x, e⟩ := x
    obtain ⟨h1, h2⟩ := ht _ (List.mem_cons_self ..)
    have ht' : ∀ x ∈ es, x.1.now.length ≤ 63 ∧ 37 ∉ x.1.now := fun x hx => ht x (List.mem_cons_of_mem _ hx)
    obtain ⟨t, h3, h4⟩ := entry_printed dir x e h2
    have hw : ∀ s0 : Logger.State, writeWin (e.env dir none x) e.format s0 p = .ok (s0.append p (textMode t)) := by
      intro s0
      unfold writeWin
      have h1 : x.now.length ≤ 63 := h1
      have e1 : (e.env dir none x).now = x.now := rfl
      rw [if_pos (by rw [e1]; omega)]
      simp only [Entry.env, h3]
    have hlog : ∃ s1, logWin tempPath (e.env dir none x) e.format s = .ok s1 ∧ s1.logFile = some p
        ∧ s1.files p = s.files p ++ textMode t ∧ ∀ q, q ≠ p → s1.files q = s.files q := by
      unfold logWin
      rcases hs with hs | ⟨hs, ⟨d, hd, hlen, hp⟩, hopen⟩
      · rw [hs]
        dsimp only
        rw [hw]
        exact ⟨s.append p (textMode t), rfl, hs, by simp [Logger.State.append], fun q hq => by simp [Logger.State.append, hq]⟩
      · rw [hs]
        have hpath : Logger.getLogFnameWin tempPath = .ok p := by
          rw [hp]; exact (Logger.C59_log_path_windows tempPath).2.1 d hd hlen
        have ho : x.canOpen p = true := hopen _ (List.mem_cons_self ..)
        have e2 : (e.env dir none x).canOpen = x.canOpen := rfl
        simp only [hpath, Outcome.ok_bind, e2, ho, if_true]
        rw [hw]
        exact ⟨{ s with logFile := some p }.append p (textMode t), rfl, rfl, by simp [Logger.State.append],
          fun q hq => by simp [Logger.State.append, hq]⟩
    obtain ⟨s1, g1, g2, g3, g4⟩ := hlog
    obtain ⟨s', text, k1, k2, k3, k4⟩ := ih s1 ht' (.inl g2)
    refine ⟨s', t ++ text, .cons h4 k1, ?_, by rw [k3, g3, textMode_append, List.append_assoc], fun q hq => by rw [k4 q hq, g4 q hq]⟩
    rw [runWin, g1, Outcome.ok_bind, k2]

/-- **C83**: nothing is written if the log file cannot be opened. -/
theorem C83_windows_file_closed (dir d : Bytes) (es : List (Stamp × LogText.Entry)) (s : Logger.State) (hs : s.logFile = none)
    (hd : d.length < 244) (ho : ∀ x ∈ es, x.1.canOpen (d ++ b!"open-license.log") = false) :
    runWin dir (some d) s es = .ok s := by
  have hpath := (Logger.C59_log_path_windows (some d)).2.1 d rfl hd
  induction es with
  | nil => rfl
  | cons x es ih =>
    have h1 : x.1.canOpen (d ++ b!"open-license.log") = false := ho _ (List.mem_cons_self ..)
    have e2 : (x.2.env dir none x.1).canOpen = x.1.canOpen := rfl
    rw [runWin]
    simp only [logWin, hs, hpath, Outcome.ok_bind, e2, h1, Bool.false_eq_true, if_false]
    exact ih fun x hx => ho x (List.mem_cons_of_mem _ hx)

/-! ## Concrete cases -/

/-- A valid licence: nothing is logged, and the hypotheses of `C83_windows_accepted` are met. -/
example : (LogText.acquire sampleConfig (windowsHooks sampleWindows sampleLib) (some sampleCaller) none none).entries = []
    ∧ retOf (LogText.acquire sampleConfig (windowsHooks sampleWindows sampleLib) (some sampleCaller) none none).result = some .licenseOk
    ∧ (located sampleConfig sampleWindows.world none).length = 1 := by decide +kernel

/-- The hypotheses of `C83_windows_acquire` are met. -/
example : ∃ es res, (LogText.acquire sampleConfig (windowsHooks sampleWindows sampleLib) (some sampleCaller) none none).result = .ok res
    ∧ Spec.TextsLogged sampleConfig sampleWindows sampleLib 5 (b!"test") res.ticks (located sampleConfig sampleWindows.world none) es
    ∧ (LogText.acquire sampleConfig (windowsHooks sampleWindows sampleLib) (some sampleCaller) none none).entries = es := by
  have hret : retOf (LogText.acquire sampleConfig (windowsHooks sampleWindows sampleLib) (some sampleCaller) none none).result
      = some .licenseOk := by decide +kernel
  obtain ⟨res, hres, _⟩ := retOf_ok hret
  obtain ⟨es, h1, h2⟩ := C83_windows_acquire (f := b!"test")
    (.named ⟨by decide, .inl ⟨List.replicate 11 0, by decide, by decide⟩⟩ (by decide)) hres (by
      have hl : located sampleConfig sampleWindows.world none = [(b!"C:\\app\\tool.lic", boundText)] := by decide +kernel
      intro p hp k _ s hs
      rw [hl, List.mem_singleton] at hp
      subst hp
      let w : World := { sampleWindows.world with verify := fun _ _ => .ok true }
      have hi : Issued w (b!"test") boundLimits boundText := by
        have hf := sample_file
        exact ⟨hf.plainFeature, hf.plainLimits, hf.distinct, _, _, hf.plainSignature, hf.written, hf.signedData, rfl⟩
      have h := (issued_limit hi (by decide) (by decide)).mp hs.identifier
      have : s = b!"AFPC-saAA-AAA=" := by simpa [boundLimits] using h
      subst this
      decide +kernel)
  refine ⟨es, res, hres, h1, ?_⟩
  rw [h2, if_neg (by rintro ⟨_, h⟩; cases h)]
  rfl

/-- Every signature accepted, none accepted. -/
def trustingWindows : Windows := { sampleWindows with crypt := { sampleBcrypt with hash := fun _ => some (b!"ABC") } }
def distrustingWindows : Windows := { sampleWindows with crypt := { sampleBcrypt with hash := fun _ => some [] } }

/-- A wrong signature is not logged; a wrong identifier and an executable that is not known are. -/
example : (LogText.acquire sampleConfig (windowsHooks distrustingWindows sampleLib) (some sampleCaller) none none).entries = []
    ∧ retOf (LogText.acquire sampleConfig (windowsHooks distrustingWindows sampleLib) (some sampleCaller) none none).result
      = some .corrupted
    ∧ (LogText.acquire sampleConfig (windowsHooks { trustingWindows with
          exe := none
          read := fun p => if p = b!"C:\\app\\tool.lic" then some (issuedText (b!"test") [(b!"client-signature", b!"QUJD")] (b!"QUJD")) else none }
        sampleLib) (some sampleCaller) (some ⟨0, b!"C:\\app\\tool.lic" ++ [0]⟩) none).entries
      = [.moduleName, .validating (b!"QUJD") (b!"wrong identifier size QUJD")] := by decide +kernel

/-- identify_pc with a variable that names no strategy, and with a strategy that does not exist. -/
example : (LogText.identifyPc (windowsHooks { sampleWindows with getenv := fun _ => some (b!"9") } sampleLib) (-1)
        (some (List.replicate 20 0)) 20).entries = [.unknownStrategy (b!"9")]
    ∧ (LogText.identifyPc (windowsHooks sampleWindows sampleLib) 7 (some (List.replicate 20 0)) 20).entries
      = [.identifying (b!"strategy not supported")]
    ∧ (LogText.identifyPc (windowsHooks { sampleWindows with net := { sampleNetWin with first := .noError [] } } sampleLib) 0
        (some (List.replicate 20 0)) 20).entries = [.identifying (b!"strategy 0 failed")] := by decide +kernel

/-- The file. -/
example : (match runWin (b!"src/") (some (b!"C:\\Temp\\")) ⟨none, fun _ => []⟩ [(sampleStamp, .unknownStrategy (b!"9"))] with
      | .ok s => s.files (b!"C:\\Temp\\open-license.log")
      | _ => [])
    = b!"2024-01-01 10:00:00[WARN] (src/hw_identifier/hw_identifier_facade.cpp:45: errno: Success) unknown IDENTIFICATION_STRATEGY 9\x0d\n" := by
  decide +kernel

end Licensecc.Win
