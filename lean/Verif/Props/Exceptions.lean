import Verif.Spec.Trouble
import Verif.Props.Info
import Verif.Props.Report
/-!
# C13, C50: exceptions and undefined behaviour of acquire_license
-/
namespace Licensecc
open Spec

/-- Exceptions satisfy `T`, undefined behaviour implies `U`. -/
def Excused {α : Type} (T : Exn → Prop) (U : Prop) (x : Outcome α) : Prop := (∀ e, x = .throw e → T e) ∧ (x = .ub → U)

namespace Excused
variable {α β : Type} {T : Exn → Prop} {U : Prop}

theorem ok (a : α) : Excused T U (.ok a) := ⟨by simp, by simp⟩

theorem bind {x : Outcome α} {f : α → Outcome β} (hx : Excused T U x) (hf : ∀ a, x = .ok a → Excused T U (f a)) :
    Excused T U (x >>= f) := by
  cases x with
  | ok a => exact hf a rfl
  | throw e => exact ⟨fun e' h => hx.1 e' (by simpa using h), by simp⟩
  | ub => exact ⟨by simp, fun _ => hx.2 rfl⟩

theorem of_ok {x : Outcome α} (h : ∃ a, x = .ok a) : Excused T U x := by
  obtain ⟨a, rfl⟩ := h; exact ok a

theorem cases {x : Outcome α} (h : Excused T U x) : (∃ a, x = .ok a) ∨ (∃ e, x = .throw e ∧ T e) ∨ (x = .ub ∧ U) := by
  cases x with
  | ok a => exact .inl ⟨a, rfl⟩
  | throw e => exact .inr (.inl ⟨e, rfl, h.1 e rfl⟩)
  | ub => exact .inr (.inr ⟨rfl, h.2 rfl⟩)
end Excused

theorem pathRoom_ge (p : Platform) : 260 ≤ pathRoom p := by cases p <;> decide

theorem Adds.platform {r r' : Registry} {es : List Entry} (h : Adds r es r') : r'.platform = r.platform := by
  induction h with
  | nil => rfl
  | cons h1 _ ih => rw [ih, addEvent_platform h1]

/-- Recording an event goes wrong only for a reference for which there is no room. -/
theorem addEvent_excused {T : Exn → Prop} {U : Prop} {P : Platform} {r : Registry} (hr : r.platform = P) {t : EventType}
    {ref info : Option Bytes} (h : ∀ p, ref = some p → pathRoom P ≤ (p.takeWhile (· ≠ 0)).length → U) :
    Excused T U (r.addEvent t ref info) := by
  subst hr
  have hk : Excused T U (Registry.keyOf r.platform (Registry.mkEvent r.platform t ref info)) := by
    unfold Registry.keyOf
    rw [maxPath_eq]
    split
    · exact .ok _
    · rename_i hlen
      refine ⟨by simp, fun _ => ?_⟩
      cases ref with
      | none => have := pathRoom_ge r.platform; simp [Registry.mkEvent] at hlen; omega
      | some p =>
        apply h p rfl
        simp only [Registry.mkEvent, Registry.cstr, maxPath_eq, List.length_take] at hlen
        omega
  unfold Registry.addEvent
  dsimp only
  split
  · split <;> split
    all_goals first
      | exact hk.bind (fun _ _ => .ok _)
      | exact .ok _
  · refine hk.bind (fun _ _ => ?_)
    split <;> exact .ok _

theorem filterExistingFiles_excused {T : Exn → Prop} {U : Prop} {P : Platform} {w : World} {extra : Bytes} {ps : List Bytes}
    (h : ∀ p ∈ ps, pathRoom P ≤ (p.takeWhile (· ≠ 0)).length → U) :
    ∀ r : Registry, r.platform = P → Excused T U (filterExistingFiles w extra r ps) := by
  induction ps with
  | nil => intro r _; exact .ok _
  | cons p ps ih =>
    intro r hr
    have hp : ∀ q, some p = some q → pathRoom P ≤ (q.takeWhile (· ≠ 0)).length → U := by
      intro q hq; simp only [Option.some.injEq] at hq; subst hq; exact h p (by simp)
    have ih := ih (fun q hq => h q (by simp [hq]))
    unfold filterExistingFiles
    refine (addEvent_excused hr hp).bind (fun r1 h1 => ?_)
    have hr1 : r1.platform = P := (addEvent_platform h1).trans hr
    split
    · refine (addEvent_excused hr1 hp).bind (fun r2 h2 => ?_)
      exact (ih r2 ((addEvent_platform h2).trans hr1)).bind (fun _ _ => .ok _)
    · exact (addEvent_excused hr1 hp).bind (fun r2 h2 => ih r2 ((addEvent_platform h2).trans hr1))

section
variable {cfg : Config} {w : World} {caller : Option Caller} {hint : Option LicenseLocation}

theorem boundedString_excused {T : Exn → Prop} {U : Prop} {mem : Bytes} {n : Nat} (h : (¬ ∃ d, TextIn mem n d) → U) :
    Excused T U (boundedString mem n) := by
  refine ⟨fun e he => absurd he (boundedString_no_throw mem n e), fun hu => h ?_⟩
  rintro ⟨d, hd⟩
  rw [boundedString_iff.mpr hd] at hu; simp at hu

theorem short_const {U : Prop} {P : Platform} {c : Bytes} (hc : (c.takeWhile (· ≠ 0)).length < 260) :
    ∀ p, some c = some p → pathRoom P ≤ (p.takeWhile (· ≠ 0)).length → U := by
  have := pathRoom_ge P
  intro p hp; simp only [Option.some.injEq] at hp; subst hp; omega

theorem licenseLocations_excused {l : Locator} (hl : l ∈ activeStrategies cfg hint) (r : Registry) (hr : r.platform = w.platform) :
    Excused (ThrowCause cfg w caller hint) (UbCause cfg w caller hint) (licenseLocations w l r) := by
  have long : ∀ p, Searched cfg w hint p → ∀ q, some p = some q → pathRoom w.platform ≤ (q.takeWhile (· ≠ 0)).length → UbCause cfg w caller hint := by
    intro p hp q hq; simp only [Option.some.injEq] at hq; subst hq; exact .longPath hp
  rw [mem_activeStrategies] at hl
  rcases hl with ⟨hn, rfl⟩ | ⟨he, rfl | rfl⟩ | ⟨loc, hh, rfl⟩
  · rw [licenseLocations]
    split
    · rename_i hm
      unfold Machine.logged
      split
      · rename_i ho; exact ⟨fun e he => by simp at he, fun _ => .logModule ho hn hm⟩
      · exact .ok _
    · rename_i m hm
      dsimp only
      split
      · exact (addEvent_excused hr (long _ (.nearModule hn hm))).bind (fun _ _ => .ok _)
      · exact (addEvent_excused hr (long _ (.nearModule hn hm))).bind (fun _ _ => .ok _)
  · rw [licenseLocations]
    split
    · rename_i c v hv
      exact (filterExistingFiles_excused (fun p hp => long p (.envLocation he hv hp) p rfl) r hr).bind (fun _ _ => .ok _)
    · exact (addEvent_excused hr (by simp)).bind (fun _ _ => .ok _)
  · rw [licenseLocations]
    split
    · refine (addEvent_excused hr (short_const (by decide))).bind (fun r1 h1 => ?_)
      split
      · exact (addEvent_excused ((addEvent_platform h1).trans hr) (short_const (by decide))).bind (fun _ _ => .ok _)
      · exact .ok _
      · exact .ok _
    · exact (addEvent_excused hr (short_const (by decide))).bind (fun _ _ => .ok _)
  · rw [licenseLocations]
    split
    · rename_i hd
      refine ⟨by simp, fun _ => .hintMemory hh ?_⟩
      rintro ⟨d, _, ⟨rest, h, _⟩ | ⟨c, rest, h, _⟩⟩ <;> rw [hd] at h <;> simp at h
    · rename_i c rest hd
      split
      · exact .ok _
      · rename_i hc
        refine (addEvent_excused hr (short_const (by decide))).bind (fun r1 h1 => ?_)
        split
        · rename_i hk
          refine (boundedString_excused (fun h => .hintMemory hh h)).bind (fun d hd' => ?_)
          rw [boundedString_iff] at hd'
          exact (filterExistingFiles_excused (fun p hp => long p (.hintPath hh hk hd' hp) p rfl) _ ((addEvent_platform h1).trans hr)).bind (fun _ _ => .ok _)
        · rename_i hk
          split
          · exact .ok _
          · rename_i hk2
            refine ⟨fun e he => ?_, by simp⟩
            simp only [Outcome.throw.injEq] at he; subst he
            exact .unknownKind hh hk (fun h => hk2 (.inl h)) (fun h => hk2 (.inr h)) hd hc

theorem getFileContents_excused {p : Bytes} (hs : Searched cfg w hint p) (hp : w.probe p = true) :
    Excused (ThrowCause cfg w caller hint) (UbCause cfg w caller hint) (getFileContents w p maxLicenseData) := by
  unfold getFileContents
  split
  · exact .ok _
  · rename_i h
    refine ⟨fun e he => ?_, by simp⟩
    simp only [Outcome.throw.injEq] at he; subst he
    exact .vanished hs hp h

/-- The locations a locator returns are files that were found, or one of two names. -/
theorem locations_are {l : Locator} (hl : l ∈ activeStrategies cfg hint) {r r' : Registry} {locs : List Bytes} {b : Bool}
    (h : licenseLocations w l r = .ok (r', locs, b)) : ∀ src ∈ locs,
      (Searched cfg w hint src ∧ w.probe src = true) ∨ (l = .environmentVarData ∧ src = locationVar)
      ∨ (src = externalName ∧ ∃ loc, l = .externalDefinition loc) := by
  intro src hsrc
  rw [mem_activeStrategies] at hl
  rcases hl with ⟨hn, rfl⟩ | ⟨he, rfl | rfl⟩ | ⟨loc, hh, rfl⟩
  · left
    simp only [licenseLocations] at h
    cases hm : w.moduleName with
    | none => rw [hm] at h; simp [logged_ok] at h; obtain ⟨_, _, rfl, _⟩ := h; simp at hsrc
    | some m =>
      rw [hm] at h
      dsimp only at h
      split at h
      · rename_i hp
        obtain ⟨r1, _, h⟩ := Outcome.bind_eq_ok.mp h
        simp at h; obtain ⟨_, rfl, _⟩ := h
        simp at hsrc; subst hsrc
        exact ⟨.nearModule hn hm, hp⟩
      · obtain ⟨r1, _, h⟩ := Outcome.bind_eq_ok.mp h
        simp at h; obtain ⟨_, rfl, _⟩ := h; simp at hsrc
  · left
    rw [licenseLocations] at h
    split at h
    · rename_i c v hv
      obtain ⟨⟨r1, fs⟩, h1, h⟩ := Outcome.bind_eq_ok.mp h
      simp at h; obtain ⟨_, rfl, _⟩ := h
      rw [filterExistingFiles_mem h1, List.mem_filter] at hsrc
      exact ⟨.envLocation he hv hsrc.1, hsrc.2⟩
    · obtain ⟨r1, _, h⟩ := Outcome.bind_eq_ok.mp h
      simp at h; obtain ⟨_, rfl, _⟩ := h; simp at hsrc
  · right; left
    refine ⟨rfl, ?_⟩
    rw [licenseLocations] at h
    split at h
    · obtain ⟨r1, _, h⟩ := Outcome.bind_eq_ok.mp h
      split at h
      · obtain ⟨r1, _, h⟩ := Outcome.bind_eq_ok.mp h
        simp at h; obtain ⟨_, rfl, _⟩ := h; simp at hsrc
      · simp at h; obtain ⟨_, rfl, _⟩ := h; simpa using hsrc
      · simp at h; obtain ⟨_, rfl, _⟩ := h; simpa using hsrc
    · obtain ⟨r1, _, h⟩ := Outcome.bind_eq_ok.mp h
      simp at h; obtain ⟨_, rfl, _⟩ := h; simp at hsrc
  · rw [licenseLocations] at h
    split at h
    · simp at h
    · split at h
      · simp at h; obtain ⟨_, rfl, _⟩ := h; simp at hsrc
      · obtain ⟨r1, _, h⟩ := Outcome.bind_eq_ok.mp h
        split at h
        · rename_i hk
          obtain ⟨d, hd, h⟩ := Outcome.bind_eq_ok.mp h
          obtain ⟨⟨r1, fs⟩, h1, h⟩ := Outcome.bind_eq_ok.mp h
          simp at h; obtain ⟨_, rfl, _⟩ := h
          rw [filterExistingFiles_mem h1, List.mem_filter] at hsrc
          exact .inl ⟨.hintPath hh hk (boundedString_iff.mp hd) hsrc.1, hsrc.2⟩
        · split at h
          · simp at h; obtain ⟨_, rfl, _⟩ := h
            exact .inr (.inr ⟨by simpa using hsrc, loc, rfl⟩)
          · simp at h

theorem decoded_excused {T : Exn → Prop} {U : Prop} {v : Bytes} (ht : v.filter (· ≠ 10) = b!"==" → T .lengthError)
    (h : decodedText v = none → v.filter (· ≠ 10) ≠ b!"==" → U) : Excused T U (do stringOfVector (← unbase64 v)) := by
  have hnt := C23_unbase64_throws v
  unfold decodedText at h
  cases hu : unbase64 v with
  | throw e =>
    obtain ⟨h1, rfl⟩ := (hnt e).mp hu
    exact ⟨fun e he => by simp at he; subst he; exact ht h1, by simp⟩
  | ub =>
    rw [hu] at h
    exact ⟨by simp, fun _ => h rfl fun heq => by have := (hnt .lengthError).mpr ⟨heq, rfl⟩; rw [hu] at this; simp at this⟩
  | ok b =>
    replace h := fun hd => h hd fun heq => by have := (hnt .lengthError).mpr ⟨heq, rfl⟩; rw [hu] at this; simp at this
    rw [hu] at h
    simp only [Outcome.ok_bind, stringOfVector]
    split
    · exact .ok _
    · rename_i h0
      exact ⟨by simp, fun _ => h (by simp [h0])⟩

theorem retrieveContent_excused {l : Locator} (hl : l ∈ activeStrategies cfg hint) {r r' : Registry} {locs : List Bytes} {b : Bool}
    (h : licenseLocations w l r = .ok (r', locs, b)) {src : Bytes} (hsrc : src ∈ locs) :
    Excused (ThrowCause cfg w caller hint) (UbCause cfg w caller hint) (retrieveContent w l b src) := by
  have hloc := locations_are hl h src hsrc
  have hact := hl
  rw [mem_activeStrategies] at hl
  rcases hl with ⟨hn, rfl⟩ | ⟨he, rfl | rfl⟩ | ⟨loc, hh, rfl⟩
  · rcases hloc with ⟨h1, h2⟩ | ⟨h1, _⟩ | ⟨_, _, h1⟩
    · exact getFileContents_excused h1 h2
    · simp at h1
    · simp at h1
  · rcases hloc with ⟨h1, h2⟩ | ⟨h1, _⟩ | ⟨_, _, h1⟩
    · exact getFileContents_excused h1 h2
    · simp at h1
    · simp at h1
  · have hfmt : ∃ dat, w.getenv dataVar = some dat ∧ dat ≠ [] ∧ identifyFormat dat ≠ .unknown
        ∧ (b = true → identifyFormat dat = .base64) := by
      rw [licenseLocations] at h
      split at h
      · rename_i c v hv
        obtain ⟨r1, _, h⟩ := Outcome.bind_eq_ok.mp h
        split at h
        · obtain ⟨r1, _, h⟩ := Outcome.bind_eq_ok.mp h
          simp at h; obtain ⟨_, rfl, _⟩ := h; simp at hsrc
        · rename_i hf
          exact ⟨_, hv, by simp, by rw [hf]; simp, fun _ => hf⟩
        · rename_i hf
          simp at h
          exact ⟨_, hv, by simp, by rw [hf]; simp, by rw [h.2.2]; simp⟩
      · obtain ⟨r1, _, h⟩ := Outcome.bind_eq_ok.mp h
        simp at h; obtain ⟨_, rfl, _⟩ := h; simp at hsrc
    obtain ⟨dat, hd, h0, hf, hb⟩ := hfmt
    rw [retrieveContent]
    cases hv : w.getenv locationVar with
    | none => exact ⟨by simp, fun _ => .dataAlone he hd h0 hf hv⟩
    | some v =>
      dsimp only
      split
      · rename_i hbt
        exact decoded_excused (fun heq => .dataEquals he hd h0 (hb hbt) hv heq) (fun hdec hne => .dataDecoding he hd h0 (hb hbt) hv hdec hne)
      · exact .ok _
  · rw [retrieveContent]
    split
    · refine (boundedString_excused (fun h => .hintMemory hh h)).bind (fun d hd => ?_)
      rw [boundedString_iff] at hd
      split
      · rename_i hk
        have hne : d ≠ [] := by
          rintro rfl
          rw [licenseLocations] at h
          split at h
          · simp at h
          · rename_i c rest hc
            have hd' := hd
            unfold TextIn at hd'
            rw [hc] at hd
            rw [if_pos (textIn_nil.mp hd)] at h
            simp at h; obtain ⟨_, rfl, _⟩ := h; simp at hsrc
        exact decoded_excused (fun heq => .hintEquals hh hk hd heq) (fun hdec hnq => .hintDecoding hh hk hd hne hdec hnq)
      · exact .ok _
    · rename_i hne
      rcases hloc with ⟨h1, h2⟩ | ⟨h1, _⟩ | ⟨h1, _⟩
      · exact getFileContents_excused h1 h2
      · simp at h1
      · exact absurd h1 hne

theorem readOne_excused {T : Exn → Prop} {U : Prop} {f src text : Bytes} {r : Registry} (hr : r.platform = w.platform)
    (h : pathRoom w.platform ≤ (src.takeWhile (· ≠ 0)).length → U) : Excused T U (readOne f r src text) := by
  have hs : ∀ p, some src = some p → pathRoom w.platform ≤ (p.takeWhile (· ≠ 0)).length → U := by
    intro p hp; simp only [Option.some.injEq] at hp; subst hp; exact h
  unfold readOne
  dsimp only
  split
  · exact (addEvent_excused hr hs).bind (fun _ _ => .ok _)
  · refine (addEvent_excused hr hs).bind (fun r1 h1 => ?_)
    have hr1 : r1.platform = w.platform := (addEvent_platform h1).trans hr
    split
    · split
      · refine Excused.bind (.of_ok ?_) (fun _ _ => .ok _)
        obtain ⟨m, h1, _⟩ := fillLimits_spec (Ini.load text) (toUpperCopy f) _ [] SMap.sorted_nil
          (fun k hk => getValue_of_key (s := text) (p := toUpperCopy f) hk)
        exact ⟨m, h1⟩
      · exact (addEvent_excused hr1 hs).bind (fun _ _ => .ok _)
    · exact (addEvent_excused hr1 hs).bind (fun _ _ => .ok _)

theorem long_location {l : Locator} (hl : l ∈ activeStrategies cfg hint) {r r' : Registry} {locs : List Bytes} {b : Bool}
    (h : licenseLocations w l r = .ok (r', locs, b)) {src : Bytes} (hsrc : src ∈ locs)
    (hlong : pathRoom w.platform ≤ (src.takeWhile (· ≠ 0)).length) : UbCause cfg w caller hint := by
  rcases locations_are hl h src hsrc with ⟨h1, _⟩ | ⟨_, rfl⟩ | ⟨rfl, _⟩
  · exact .longPath h1 hlong
  · exact absurd (Nat.le_trans (pathRoom_ge _) hlong) (by decide)
  · exact absurd (Nat.le_trans (pathRoom_ge _) hlong) (by decide)

theorem readLocations_excused {f : Bytes} {l : Locator} (hl : l ∈ activeStrategies cfg hint) {r0 r' : Registry} {locs0 : List Bytes}
    {b : Bool} (h : licenseLocations w l r0 = .ok (r', locs0, b)) (locs : List Bytes) (hsub : ∀ s ∈ locs, s ∈ locs0) :
    ∀ r : Registry, r.platform = w.platform → Excused (ThrowCause cfg w caller hint) (UbCause cfg w caller hint) (readLocations w f l b r locs) := by
  induction locs with
  | nil => intro r _; exact .ok _
  | cons s locs ih =>
    intro r hrp
    unfold readLocations
    refine (retrieveContent_excused hl h (hsub s (by simp))).bind (fun content _ => ?_)
    refine (readOne_excused hrp (fun hlong => long_location hl h (hsub s (by simp)) hlong)).bind (fun x hx => ?_)
    obtain ⟨r1, lic⟩ := x
    exact (ih (fun s hs => hsub s (by simp [hs])) r1 (by obtain ⟨ts, _, ha⟩ := readOne_adds hx; rw [ha.platform, hrp])).bind (fun _ _ => .ok _)

theorem readLocators_excused {f : Bytes} (ls : List Locator) (hls : ∀ l ∈ ls, l ∈ activeStrategies cfg hint) :
    ∀ r : Registry, r.platform = w.platform → Excused (ThrowCause cfg w caller hint) (UbCause cfg w caller hint) (readLocators w f r ls) := by
  induction ls with
  | nil => intro r _; exact .ok _
  | cons l ls ih =>
    intro r hrp
    unfold readLocators
    refine (licenseLocations_excused (hls l (by simp)) r hrp).bind (fun x hx => ?_)
    obtain ⟨r1, locs, b⟩ := x
    have hr1 : r1.platform = w.platform := (licenseLocations_adds hx).platform.trans hrp
    refine (readLocations_excused (hls l (by simp)) hx locs (fun _ h => h) r1 hr1).bind (fun y hy => ?_)
    obtain ⟨r2, lics⟩ := y
    obtain ⟨es, _, ha⟩ := readLocations_adds hy
    exact (ih (fun l hl => hls l (by simp [hl])) r2 (ha.platform.trans hr1)).bind (fun _ _ => .ok _)

theorem readLicenses_excused (f : Bytes) :
    Excused (ThrowCause cfg w caller hint) (UbCause cfg w caller hint) (readLicenses cfg w hint f) := by
  unfold readLicenses
  dsimp only
  split
  · refine .of_ok ?_
    cases w.platform
    · exact ⟨_, rfl⟩
    · exact ⟨_, rfl⟩
  · refine Excused.bind (readLocators_excused _ (fun _ h => h) _ rfl) (fun x hx => ?_)
    obtain ⟨r, lics⟩ := x
    dsimp only
    split
    · obtain ⟨es, _, hadds⟩ := readLocators_adds hx
      obtain ⟨r2, f2, g1, _⟩ := turnWarnings_spec (exact_addHistory (hadds.history (.empty _))).2.1
      rw [g1]
      exact .ok _
    · exact .ok _

/-! ## Judging -/

theorem verifySignature_excused {f src text : Bytes} {l : FullLicense} (hc : Candidate cfg w caller hint f text)
    (hl : IsLicence f src text l) (hs : pathRoom w.platform ≤ (src.takeWhile (· ≠ 0)).length → UbCause cfg w caller hint) (r : Registry)
    (hr : r.platform = w.platform) :
    Excused (ThrowCause cfg w caller hint) (UbCause cfg w caller hint) (verifySignature w (withMagic caller l) r) := by
  have e1 : (withMagic caller l).printForSign = l.printForSign := rfl
  have e2 : (withMagic caller l).signature = l.signature := rfl
  have e3 : (withMagic caller l).source = src := hl.source
  unfold verifySignature
  rw [e1, e2, e3]
  refine Excused.bind ⟨fun e he => .verifier hc hl.signature (signingData_of_licence hl) he,
    fun he => .verifier hc hl.signature (signingData_of_licence hl) he⟩ (fun g _ => ?_)
  exact (addEvent_excused hr (by intro p hp; simp only [Option.some.injEq] at hp; subst hp; exact hs)).bind (fun _ _ => .ok _)

theorem toLicenseInfo_excused {f src text : Bytes} {l : FullLicense} (hc : Candidate cfg w caller hint f text)
    (hl : IsLicence f src text l) (k : Nat) :
    Excused (ThrowCause cfg w caller hint) (UbCause cfg w caller hint) (toLicenseInfo w (withMagic caller l) k) := by
  have e1 : (withMagic caller l).limits = l.limits := rfl
  unfold toLicenseInfo
  dsimp only
  rw [e1]
  cases hd : SMap.find? kExpiry l.limits with
  | none => exact .ok _
  | some d =>
    have hlim := (hl.limits _ _).mp hd
    dsimp only
    have hsec : Excused (ThrowCause cfg w caller hint) (UbCause cfg w caller hint) (secondsFromEpoch w.mktime d) := by
      refine ⟨fun e he => ?_, fun he => absurd he (secondsFromEpoch_no_ub _ _)⟩
      have : e = .invalidArgument := by
        rcases he' : parseDate d with a | e' | _ 
        · simp [secondsFromEpoch, he'] at he
        · simp [secondsFromEpoch, he'] at he; subst he
          unfold parseDate at he'
          repeat' split at he'
          all_goals simp_all
        · simp [secondsFromEpoch, he'] at he
      subst this
      exact .badExpiry hc hlim he
    refine hsec.bind (fun t ht => ?_)
    split
    · exact .ok _
    · rename_i hr
      exact ⟨by simp, fun _ => .farExpiry hc hlim ht (C10_nearest (t - w.clock k)) (by omega)⟩

theorem seconds_throw {mk : Int → Int → Int → Int} {d : Bytes} {e : Exn} (he : secondsFromEpoch mk d = .throw e) :
    e = .invalidArgument := by
  rcases he' : parseDate d with a | e' | _ 
  · simp [secondsFromEpoch, he'] at he
  · simp [secondsFromEpoch, he'] at he; subst he
    unfold parseDate at he'
    repeat' split at he'
    all_goals simp_all
  · simp [secondsFromEpoch, he'] at he

theorem verifyLimits_excused {f src text : Bytes} {l : FullLicense} (hc : Candidate cfg w caller hint f text)
    (hl : IsLicence f src text l) (hsig : Signed w f text)
    (hs : pathRoom w.platform ≤ (src.takeWhile (· ≠ 0)).length → UbCause cfg w caller hint) (r : Registry) (hr : r.platform = w.platform)
    (k : Nat) :
    Excused (ThrowCause cfg w caller hint) (UbCause cfg w caller hint) (verifyLimits cfg w (withMagic caller l) r k) := by
  have e1 : (withMagic caller l).limits = l.limits := rfl
  have e3 : (withMagic caller l).source = src := hl.source
  have hs' : ∀ p, some src = some p → pathRoom w.platform ≤ (p.takeWhile (· ≠ 0)).length → UbCause cfg w caller hint := by
    intro p hp; simp only [Option.some.injEq] at hp; subst hp; exact hs
  have hexp : ∀ now (r : Registry), r.platform = w.platform → Excused (ThrowCause cfg w caller hint) (UbCause cfg w caller hint) (checkExpiry w now (withMagic caller l) r) := by
    intro now r hr
    unfold checkExpiry
    rw [e1, e3]
    cases hd : SMap.find? kExpiry l.limits with
    | none => exact .ok _
    | some d =>
      refine Excused.bind ⟨fun e he => ?_, fun he => absurd he (secondsFromEpoch_no_ub _ _)⟩ (fun t _ => ?_)
      · have := seconds_throw he; subst this; exact .badExpiry hc ((hl.limits _ _).mp hd) he
      · split
        · exact (addEvent_excused hr hs').bind (fun _ _ => .ok _)
        · exact .ok _
  have hbeg : ∀ now (r : Registry), r.platform = w.platform → Excused (ThrowCause cfg w caller hint) (UbCause cfg w caller hint) (checkBegin w now (withMagic caller l) r) := by
    intro now r hr
    unfold checkBegin
    rw [e1, e3]
    cases hd : SMap.find? kBegin l.limits with
    | none => exact .ok _
    | some d =>
      refine Excused.bind ⟨fun e he => ?_, fun he => absurd he (secondsFromEpoch_no_ub _ _)⟩ (fun t _ => ?_)
      · have := seconds_throw he; subst this; exact .badBegin hc hsig ((hl.limits _ _).mp hd) he
      · split
        · exact (addEvent_excused hr hs').bind (fun _ _ => .ok _)
        · exact .ok _
  have hcl : ∀ (r : Registry), r.platform = w.platform → Excused (ThrowCause cfg w caller hint) (UbCause cfg w caller hint) (checkClient w (withMagic caller l) r) := by
    intro r hr
    unfold checkClient
    rw [e1, e3]
    cases hd : SMap.find? kClient l.limits with
    | none => exact .ok _
    | some d =>
      have hlim := (hl.limits _ _).mp hd
      refine Excused.bind ⟨fun e he => ?_, fun he => ?_⟩ (fun t _ => ?_)
      · obtain ⟨h1, h, h2, h3⟩ := (C28_throw_iff _ _ _).mp he
        exact .hardware hc hsig hlim h2 h1 h3
      · rcases (C28_ub_iff _ _).mp he with h | ⟨_, ho, ⟨h0, h⟩ | ⟨h0, h⟩ | ⟨h0, h⟩⟩ | ⟨h1, h2⟩
        · exact .identifier hc hsig hlim h
        · exact .hardware hc hsig hlim ho (.inl ⟨by omega, h⟩)
        · exact .hardware hc hsig hlim ho (.inl ⟨by omega, h⟩)
        · exact .hardware hc hsig hlim ho (.inr ⟨h0, h⟩)
        · exact .logIdentifier h1 hc hsig hlim h2
      · exact (addEvent_excused hr hs').bind (fun _ _ => .ok _)
  unfold verifyLimits
  dsimp only
  split
  · refine (hexp _ _ hr).bind (fun x hx => ?_)
    obtain ⟨r1, v1⟩ := x
    have hr1 : r1.platform = w.platform := by
      rcases checkExpiry_adds (cfg := cfg) hx with ⟨_, rfl⟩ | ⟨_, es, _, ha⟩
      · exact hr
      · exact ha.platform.trans hr
    dsimp only
    split
    · refine (hbeg _ _ hr1).bind (fun x hx => ?_)
      obtain ⟨r2, v2⟩ := x
      have hr2 : r2.platform = w.platform := by
        rcases checkBegin_adds (cfg := cfg) hx with ⟨_, rfl⟩ | ⟨_, es, _, ha⟩
        · exact hr1
        · exact ha.platform.trans hr1
      dsimp only
      split
      · exact (hcl _ hr2).bind (fun _ _ => .ok _)
      · exact .ok _
    · exact .ok _
  · rw [e3]
    exact (addEvent_excused hr hs').bind (fun _ _ => .ok _)

theorem judgeLoop_excused {f : Bytes} (hf : FeatureIs cfg caller f) (lics : List FullLicense)
    (hl : ∀ l ∈ lics, ∃ src text, Offers cfg w hint src text ∧ IsLicence f src text l) :
    ∀ (r : Registry) k, r.platform = w.platform → Excused (ThrowCause cfg w caller hint) (UbCause cfg w caller hint) (judgeLoop cfg w caller r k lics) := by
  induction lics with
  | nil => intro r k _; exact .ok _
  | cons l ls ih =>
    intro r k hr
    have ih := ih (fun l hl' => hl l (by simp [hl']))
    obtain ⟨src, text, ho, hlic⟩ := hl l (by simp)
    have hc : Candidate cfg w caller hint f text := ⟨hf, ⟨src, ho⟩, complete_of_licence hlic⟩
    have hs : pathRoom w.platform ≤ (src.takeWhile (· ≠ 0)).length → UbCause cfg w caller hint := by
      intro hlong
      cases ho with
      | nearModule h1 h2 => exact .longPath (.nearModule h1 h2) hlong
      | envLocation h1 h2 h3 => exact .longPath (.envLocation h1 h2 h3) hlong
      | envData => exact absurd (Nat.le_trans (pathRoom_ge _) hlong) (by decide)
      | envDataEncoded => exact absurd (Nat.le_trans (pathRoom_ge _) hlong) (by decide)
      | hintPath h1 h2 h3 h4 => exact .longPath (.hintPath h1 h2 h3 h4) hlong
      | hintPathOddName => exact absurd (Nat.le_trans (pathRoom_ge _) hlong) (by decide)
      | hintPlain => exact absurd (Nat.le_trans (pathRoom_ge _) hlong) (by decide)
      | hintEncoded => exact absurd (Nat.le_trans (pathRoom_ge _) hlong) (by decide)
    unfold judgeLoop
    dsimp only
    refine (verifySignature_excused hc hlic hs r hr).bind (fun x hx => ?_)
    obtain ⟨r1, good⟩ := x
    have hr1 : r1.platform = w.platform := (verifySignature_adds hx).platform.trans hr
    dsimp only
    refine (toLicenseInfo_excused hc hlic k).bind (fun y _ => ?_)
    obtain ⟨info, k1⟩ := y
    dsimp only
    split
    · rename_i hg
      subst hg
      have hsig : Signed w f text := by
        rw [signed_iff hlic]
        unfold verifySignature at hx
        obtain ⟨g, h1, hx⟩ := Outcome.bind_eq_ok.mp hx
        obtain ⟨r2, _, hx⟩ := Outcome.bind_eq_ok.mp hx
        simp at hx; obtain ⟨_, rfl⟩ := hx
        exact h1
      refine (verifyLimits_excused hc hlic hsig hs _ hr1 _).bind (fun z hz => ?_)
      obtain ⟨r2, k2, v⟩ := z
      obtain ⟨es, _, ha⟩ := verifyLimits_adds hz
      exact (ih r2 k2 (ha.platform.trans hr1)).bind (fun _ _ => .ok _)
    · exact (ih r1 k1 hr1).bind (fun _ _ => .ok _)

theorem readLicenses_platform {f : Bytes} {r : Registry} {lics : List FullLicense} (h : readLicenses cfg w hint f = .ok (r, lics)) :
    r.platform = w.platform := by
  obtain ⟨es, r0, ha, _, ⟨_, b, ht⟩ | ⟨_, rfl⟩⟩ := readLicenses_adds h
  · rw [turnWarnings_platform ht, ha.platform]; rfl
  · rw [ha.platform]; rfl

theorem acquire_excused (out : Option LicInfo) :
    Excused (ThrowCause cfg w caller hint) (UbCause cfg w caller hint) (acquire cfg w caller hint out) := by
  by_cases hf : ∃ f, FeatureIs cfg caller f
  · obtain ⟨f, hf⟩ := hf
    rcases (readLicenses_excused (cfg := cfg) (w := w) (caller := caller) (hint := hint) f).cases with ⟨⟨r, lics⟩, hr⟩ | ⟨e, hr, ht⟩ | ⟨hr, hu⟩
    · rcases (judgeLoop_excused (w := w) hf lics (fun l hl => (mem_readLicenses hr l).mp hl) r 0 (readLicenses_platform hr)).cases with ⟨x, hj⟩ | ⟨e, hj, ht⟩ | ⟨hj, hu⟩
      · by_cases hn : NothingToReport cfg w hint
        · obtain ⟨h1, h2, h3, h4⟩ := hn
          rw [C12_null_dereference hf ⟨h1, h2, h3, h4⟩]
          exact ⟨by simp, fun _ => .nothing h1 h2 h3 h4⟩
        · exact .of_ok (C12_otherwise_returns hf hn hr ⟨x, hj⟩)
      · unfold acquire
        rw [featureOf_iff.mpr hf, Outcome.ok_bind, hr, Outcome.ok_bind]
        dsimp only
        unfold judge
        split
        · simp [judgeLoop] at hj
        · rw [hj]; exact ⟨fun e' he => by simp at he; subst he; exact ht, by simp⟩
      · unfold acquire
        rw [featureOf_iff.mpr hf, Outcome.ok_bind, hr, Outcome.ok_bind]
        dsimp only
        unfold judge
        split
        · simp [judgeLoop] at hj
        · rw [hj]; exact ⟨by simp, fun _ => hu⟩
    · unfold acquire
      rw [featureOf_iff.mpr hf, Outcome.ok_bind, hr]
      exact ⟨fun e' he => by simp at he; subst he; exact ht, by simp⟩
    · unfold acquire
      rw [featureOf_iff.mpr hf, Outcome.ok_bind, hr]
      exact ⟨by simp, fun _ => hu⟩
  · have hu : UbCause cfg w caller hint := .feature hf
    unfold acquire
    refine Excused.bind ⟨fun e he => ?_, fun _ => hu⟩ (fun f hf' => absurd ⟨f, featureOf_iff.mp hf'⟩ hf)
    unfold featureOf at he
    split at he
    · simp at he
    · rcases Outcome.bind_eq_throw.mp he with h | ⟨_, _, h⟩
      · exact absurd h (boundedString_no_throw _ _ _)
      · simp at h

/-! ## C13 -/

/-- **C13** (the property fails; these are all the ways): an exception that escapes from the call has one of the listed
    causes. -/
theorem C13_exception_causes {out : Option LicInfo} {e : Exn} (h : acquire cfg w caller hint out = .throw e) :
    ThrowCause cfg w caller hint e := (acquire_excused out).1 e h

/-- **C50**: undefined behaviour has one of the listed causes. -/
theorem C50_undefined_behaviour_causes {out : Option LicInfo} (h : acquire cfg w caller hint out = .ub) :
    UbCause cfg w caller hint := (acquire_excused out).2 h

/-- **C50**: without any of these causes the call returns. -/
theorem C50_returns (out : Option LicInfo) (h1 : ∀ e, ¬ ThrowCause cfg w caller hint e) (h2 : ¬ UbCause cfg w caller hint) :
    ∃ res, acquire cfg w caller hint out = .ok res := by
  rcases (acquire_excused (cfg := cfg) (w := w) (caller := caller) (hint := hint) out).cases with h | ⟨e, _, h⟩ | ⟨_, h⟩
  · exact h
  · exact absurd h (h1 e)
  · exact absurd h h2

theorem searchEntries_reads {f : Bytes} {ls : List Locator} {es : List Entry} {lics : List FullLicense}
    (h : SearchEntries w f ls es lics) {l : Locator} (hl : l ∈ ls) :
    ∃ r r' locs b, licenseLocations w l r = .ok (r', locs, b) ∧ ∀ src ∈ locs, ∃ t, retrieveContent w l b src = .ok t := by
  have hread : ∀ {l b locs es lics}, ReadEntries w f l b locs es lics → ∀ src ∈ locs, ∃ t, retrieveContent w l b src = .ok t := by
    intro l b locs es lics h
    induction h with
    | nil => simp
    | cons h1 _ _ _ ih =>
      intro src hsrc
      rcases List.mem_cons.mp hsrc with rfl | hsrc
      · exact ⟨_, h1⟩
      · exact ih src hsrc
  induction h with
  | nil => simp at hl
  | cons h1 h2 _ ih =>
    rcases List.mem_cons.mp hl with rfl | hl
    · exact ⟨_, _, _, _, h1, hread h2⟩
    · exact ih hl

/-- Every active locator was asked and every location it returned was read. -/
theorem acquire_reads {out : Option LicInfo} {res : AcquireResult} (h : acquire cfg w caller hint out = .ok res) {l : Locator}
    (hl : l ∈ activeStrategies cfg hint) :
    ∃ r r' locs b, licenseLocations w l r = .ok (r', locs, b) ∧ ∀ src ∈ locs, ∃ t, retrieveContent w l b src = .ok t := by
  obtain ⟨f, r, lics, es, _, _, hes, _⟩ := acquire_cases h
  rcases hes with ⟨hnil, _⟩ | hes
  · rw [hnil] at hl; simp at hl
  · exact searchEntries_reads hes hl

/-- **C13** (negation of "no exception escapes", 1): data of an unknown kind in the caller's location always prevents the
    call from returning. -/
theorem C13_unknown_kind {out : Option LicInfo} {l : LicenseLocation} {c : UInt8} {rest : Bytes} (h0 : l.kind ≠ 0)
    (h1 : l.kind ≠ 1) (h2 : l.kind ≠ 2) (hd : l.data = c :: rest) (hc : c ≠ 0) (res : AcquireResult) :
    acquire cfg w caller (some l) out ≠ .ok res := by
  intro h
  obtain ⟨r, r', locs, b, hloc, _⟩ := acquire_reads h (l := .externalDefinition l) (mem_activeStrategies.mpr (.inr (.inr ⟨l, rfl, rfl⟩)))
  rw [licenseLocations, hd] at hloc
  dsimp only at hloc
  rw [if_neg hc] at hloc
  obtain ⟨r1, _, hloc⟩ := Outcome.bind_eq_ok.mp hloc
  rw [if_neg h0, if_neg (by rintro (h | h); exact h1 h; exact h2 h)] at hloc
  simp at hloc

/-- **C13** (negation, 2): a file that exists but cannot be read prevents the call from returning. -/
theorem C13_unreadable_file {out : Option LicInfo} {p : Bytes} (hs : Searched cfg w hint p) (hp : w.probe p = true)
    (hr : w.read p = none) (hn : p ≠ b!"ExternalDefinition") (res : AcquireResult) :
    acquire cfg w caller hint out ≠ .ok res := by
  intro h
  have hno : ∀ t, getFileContents w p maxLicenseData ≠ .ok t := by
    intro t ht; rw [getFileContents_iff] at ht; obtain ⟨x, hx, _⟩ := ht; rw [hr] at hx; simp at hx
  cases hs with
  | @nearModule m h1 h2 =>
    obtain ⟨r, r', locs, b, hloc, hcont⟩ := acquire_reads h (l := .applicationFolder) (mem_activeStrategies.mpr (.inl ⟨h1, rfl⟩))
    have : removeExtension m ++ licenseExt ∈ locs := by
      simp only [licenseLocations, h2] at hloc
      have hp' : w.probe (removeExtension m ++ licenseExt) = true := hp
      rw [if_pos hp'] at hloc
      obtain ⟨r1, _, hloc⟩ := Outcome.bind_eq_ok.mp hloc
      simp at hloc; rw [← hloc.2.1]; simp
    obtain ⟨t, ht⟩ := hcont _ this
    exact hno t ht
  | @envLocation v _ h1 h2 h3 =>
    obtain ⟨r, r', locs, b, hloc, hcont⟩ := acquire_reads h (l := .environmentVarLocation)
      (mem_activeStrategies.mpr (.inr (.inl ⟨h1, .inl rfl⟩)))
    have : p ∈ locs := by
      rw [licenseLocations] at hloc
      have h2' : w.getenv locationVar = some v := h2
      cases v with
      | nil => simp [splitString, splitAux] at h3
      | cons c v =>
        rw [h2'] at hloc
        dsimp only at hloc
        obtain ⟨⟨r1, fs⟩, hf, hloc⟩ := Outcome.bind_eq_ok.mp hloc
        simp at hloc; rw [← hloc.2.1, filterExistingFiles_mem hf, List.mem_filter]; exact ⟨h3, hp⟩
    obtain ⟨t, ht⟩ := hcont _ this
    exact hno t ht
  | @hintPath l d _ h1 h2 h3 h4 =>
    subst h1
    obtain ⟨r, r', locs, b, hloc, hcont⟩ := acquire_reads h (l := .externalDefinition l)
      (mem_activeStrategies.mpr (.inr (.inr ⟨l, rfl, rfl⟩)))
    have : p ∈ locs := by
      rw [licenseLocations] at hloc
      split at hloc
      · simp at hloc
      · rename_i c rest hc
        split at hloc
        · rename_i hc0
          rw [hc, hc0] at h3
          have := textIn_unique h3 (textIn_nil.mpr rfl)
          subst this; simp [splitString, splitAux] at h4
        · obtain ⟨r1, _, hloc1⟩ := Outcome.bind_eq_ok.mp hloc
          obtain ⟨d', hd, hloc2⟩ := Outcome.bind_eq_ok.mp hloc1
          obtain ⟨⟨r2, fs⟩, hf, hloc3⟩ := Outcome.bind_eq_ok.mp hloc2
          have hdd := textIn_unique h3 (boundedString_iff.mp hd)
          rw [← hdd] at hf
          simp at hloc3; rw [← hloc3.2.1, filterExistingFiles_mem hf, List.mem_filter]; exact ⟨h4, hp⟩
    obtain ⟨t, ht⟩ := hcont _ this
    rw [retrieveContent, if_neg hn] at ht
    exact hno t ht

/-- **C13** (negation, 4): encoded data that is `==` prevents the call from returning. -/
theorem C13_equals_data {out : Option LicInfo} {l : LicenseLocation} {d : Bytes} (hk : l.kind = 2) (hd : TextIn l.data 4096 d)
    (he : d.filter (· ≠ 10) = b!"==") (res : AcquireResult) : acquire cfg w caller (some l) out ≠ .ok res := by
  intro h
  obtain ⟨r, r', locs, b, hloc, hcont⟩ := acquire_reads h (l := .externalDefinition l) (mem_activeStrategies.mpr (.inr (.inr ⟨l, rfl, rfl⟩)))
  have hin : externalName ∈ locs := by
    rw [licenseLocations] at hloc
    split at hloc
    · simp at hloc
    · rename_i c rest hc
      split at hloc
      · rename_i hc0
        rw [hc, hc0] at hd
        have := textIn_unique hd (textIn_nil.mpr rfl)
        subst this; simp at he
      · obtain ⟨r1, _, hloc⟩ := Outcome.bind_eq_ok.mp hloc
        rw [if_neg (by omega), if_pos (.inr hk)] at hloc
        simp at hloc; rw [← hloc.2.1]; simp
  obtain ⟨t, ht⟩ := hcont _ hin
  rw [retrieveContent, if_pos rfl] at ht
  obtain ⟨d', hd', ht⟩ := Outcome.bind_eq_ok.mp ht
  have := textIn_unique hd (boundedString_iff.mp hd'); subst this
  rw [if_pos hk, (C23_unbase64_throws d .lengthError).mpr ⟨he, rfl⟩] at ht
  simp at ht

/-- **C50** (a cause that is always fatal): a module path without room in an audit event (1024 bytes on Linux, 260 on
    Windows). -/
theorem C50_long_module_path {out : Option LicInfo} {m f : Bytes} (hn : cfg.nearModule = true) (hm : w.moduleName = some m)
    (hf : FeatureIs cfg caller f) (hlong : pathRoom w.platform ≤ ((removeExtension m ++ b!".lic").takeWhile (· ≠ 0)).length) :
    acquire cfg w caller hint out = .ub := by
  have hfo : featureOf cfg caller = .ok f := featureOf_iff.mpr hf
  have hadd : ∀ t, (Registry.empty w.platform).addEvent t (some (removeExtension m ++ licenseExt)) = .ub := by
    intro t
    refine (C30_add_ub_iff _ _ _ _).1.mpr ⟨⟨_, rfl, hlong⟩, ?_⟩
    intro s hs
    show (-1 : Int) ≤ s
    unfold stage at hs
    repeat' split at hs
    all_goals simp at hs
    all_goals omega
  unfold acquire
  rw [hfo]
  have hr : readLicenses cfg w hint f = .ub := by
    unfold readLicenses activeStrategies
    simp only [hn, if_true, List.cons_append, List.nil_append, List.isEmpty_cons, Bool.false_eq_true, if_false]
    rw [readLocators, licenseLocations, hm]
    dsimp only
    split
    · rw [hadd]; rfl
    · rw [hadd]; rfl
  simp [hr]

theorem judged_info {k k' : Nat} {ls : List FullLicense} {oks errs : List LicInfo} (h : Judged cfg w caller k ls k' oks errs) :
    ∀ l ∈ ls, ∃ j x, toLicenseInfo w l j = .ok x := by
  induction h with
  | nil => simp
  | ok h1 _ _ ih =>
    intro l hl
    rcases List.mem_cons.mp hl with rfl | hl
    · exact ⟨_, _, h1⟩
    · exact ih l hl
  | bad h1 _ _ _ _ ih =>
    intro l hl
    rcases List.mem_cons.mp hl with rfl | hl
    · exact ⟨_, _, h1⟩
    · exact ih l hl

/-- **C13** (negation, 3): one licence for the feature with a `valid-to` that is not a date, signed or not, prevents the
    call from returning, whatever other licences there are. -/
theorem C13_bad_expiry {out : Option LicInfo} {f text d : Bytes} {e : Exn} (hc : Candidate cfg w caller hint f text)
    (hd : IsLimit (entriesFor f text) (b!"valid-to") d) (hbad : secondsFromEpoch w.mktime d = .throw e) (res : AcquireResult) :
    acquire cfg w caller hint out ≠ .ok res := by
  intro h
  obtain ⟨hf, ⟨src, ho⟩, hcomp⟩ := hc
  obtain ⟨f', r, lics, es, hf', hr, _, hcs, _⟩ := acquire_cases h
  have := featureIs_unique hf hf'; subst this
  obtain ⟨l, hl, hlic⟩ := licence_of_complete hr ho hcomp
  rcases hcs with ⟨hnil, _⟩ | ⟨_, vs, es', oks, errs, r1, _, hloop, _⟩
  · rw [hnil] at hl; simp at hl
  · obtain ⟨j, x, hx⟩ := judged_info (judgeLoop_judged hloop) l hl
    simp only [toLicenseInfo, (hlic.limits _ _).mpr hd, hbad, Outcome.throw_bind] at hx
    simp at hx

end

/-- A licence without signature worth the name and with a nonsense date, together with a good one. -/
def nonsenseHint : LicenseLocation := ⟨1, b!"[TEST]\nlic_ver=200\nsig=x\nvalid-to=tomorrow\n" ++ [0]⟩

/-- The exceptions do escape: an unsigned licence with a nonsense date next to a good one, an unknown kind of location, an
    encoded licence that is `==`, a file that vanishes. -/
example : acquire sampleConfig (sampleWorld sampleNow) (some sampleCaller) (some nonsenseHint) none = .throw .invalidArgument
    ∧ acquire sampleConfig (sampleWorld sampleNow) (some sampleCaller) (some ⟨7, [65, 0]⟩) none = .throw .logicError
    ∧ acquire sampleConfig (sampleWorld sampleNow) (some sampleCaller) (some ⟨2, b!"==" ++ [0]⟩) none = .throw .lengthError
    ∧ acquire sampleConfig { sampleWorld sampleNow with read := fun _ => none } (some sampleCaller) none none = .throw .runtimeError := by
  decide +kernel

end Licensecc
