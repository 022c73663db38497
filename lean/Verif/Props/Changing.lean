import Verif.Spec.Changing
import Verif.Props.Acquire
/-!
# C82: acquire_license while its surroundings change
-/
namespace Licensecc.Changing
open Licensecc Licensecc.Spec

/-! ## Computations through moments -/

theorem bind_ok {α β : Type} {x : During α} {f : α → During β} {n n'' : Nat} {b : β} :
    (x >>= f).run n = .ok (b, n'') ↔ ∃ a n', x.run n = .ok (a, n') ∧ (f a).run n' = .ok (b, n'') := by
  show (During.bind x f).run n = _ ↔ _
  unfold During.bind
  cases h : x.run n with
  | ok p =>
    obtain ⟨a, n'⟩ := p
    simp only [h, Outcome.ok.injEq, Prod.mk.injEq]
    exact ⟨fun h' => ⟨a, n', ⟨rfl, rfl⟩, h'⟩, fun ⟨_, _, ⟨e1, e2⟩, h'⟩ => by subst e1; subst e2; exact h'⟩
  | throw e => simp [h]
  | ub => simp [h]

theorem pure_ok {α : Type} {a b : α} {n n' : Nat} : (pure a : During α).run n = .ok (b, n') ↔ n = n' ∧ a = b := by
  show Outcome.ok (a, n) = _ ↔ _
  simp [and_comm]

theorem blind_ok {α : Type} {x : Outcome α} {a : α} {n n' : Nat} : (blind x).run n = .ok (a, n') ↔ n = n' ∧ x = .ok a := by
  unfold blind
  cases x with
  | ok b => simp [and_comm]
  | throw e => simp
  | ub => simp

theorem bind_look {β : Type} {ws : Worlds} {f : World → During β} {n n'' : Nat} {b : β} :
    (look ws >>= f).run n = .ok (b, n'') ↔ (f (ws n)).run (n + 1) = .ok (b, n'') := Iff.rfl

theorem bind_blind {α β : Type} {x : Outcome α} {f : α → During β} {n n'' : Nat} {b : β} :
    (blind x >>= f).run n = .ok (b, n'') ↔ ∃ a, x = .ok a ∧ (f a).run n = .ok (b, n'') := by
  rw [bind_ok]
  constructor
  · rintro ⟨a, n', h1, h2⟩
    replace h1 := blind_ok.mp h1; obtain ⟨rfl, h1⟩ := h1
    exact ⟨a, h1, h2⟩
  · rintro ⟨a, h1, h2⟩
    exact ⟨a, n, blind_ok.mpr ⟨rfl, h1⟩, h2⟩

/-! ## When nothing changes -/

/-- The outcome without the moment. -/
def outcome {α : Type} : Outcome (α × Nat) → Outcome α
  | .ok (a, _) => .ok a
  | .throw e => .throw e
  | .ub => .ub

/-- Whenever it starts, the computation has this outcome. -/
def Still {α : Type} (x : During α) (y : Outcome α) : Prop := ∀ n, outcome (x.run n) = y

theorem Still.pure {α : Type} (a : α) : Still (Pure.pure a) (Pure.pure a) := fun _ => rfl

theorem Still.bind {α β : Type} {x : During α} {y : Outcome α} {f : α → During β} {g : α → Outcome β} (hx : Still x y)
    (hf : ∀ a, Still (f a) (g a)) : Still (x >>= f) (y >>= g) := by
  intro n
  show outcome ((During.bind x f).run n) = _
  have := hx n
  unfold During.bind
  cases h : x.run n with
  | ok p =>
    obtain ⟨a, n'⟩ := p
    simp only [h]
    rw [h] at this
    rw [← this]
    exact hf a n'
  | throw e => simp only [h]; rw [h] at this; rw [← this]; rfl
  | ub => simp only [h]; rw [h] at this; rw [← this]; rfl

theorem Still.look {w : World} {β : Type} {f : World → During β} {y : Outcome β} (hf : Still (f w) y) :
    Still (Changing.look (fun _ => w) >>= f) y := by
  intro n
  exact hf (n + 1)

theorem Still.blind {α : Type} (x : Outcome α) : Still (Changing.blind x) x := by
  intro n; cases x <;> rfl

theorem still_filter {w : World} {extra : Bytes} {ps : List Bytes} : ∀ {r : Registry},
    Still (filterExistingFiles (fun _ => w) extra r ps) (Licensecc.filterExistingFiles w extra r ps) := by
  induction ps with
  | nil => intro r; exact .pure _
  | cons p ps ih =>
    intro r
    rw [filterExistingFiles, Licensecc.filterExistingFiles]
    refine .bind (.blind _) (fun r1 => .look ?_)
    cases w.probe p with
    | true => exact .bind (.blind _) (fun r2 => .bind ih (fun _ => .pure _))
    | false => exact .bind (.blind _) (fun r2 => ih)

theorem still_contents {w : World} {p : Bytes} {m : Nat} :
    Still (getFileContents (fun _ => w) p m) (Licensecc.getFileContents w p m) := by
  unfold getFileContents Licensecc.getFileContents
  refine .look ?_
  cases h : w.read p with
  | none => exact .blind _
  | some c =>
    refine .look ?_
    rw [h]
    simp only [Option.getD_some]
    have : c.take (min c.length m) ++ List.replicate (min c.length m - (c.take (min c.length m)).length) 0 = c.take m := by
      rw [List.length_take]
      have e : min c.length m - min (min c.length m) c.length = 0 := by omega
      rw [e, List.replicate_zero, List.append_nil]
      by_cases hm : m ≤ c.length
      · rw [Nat.min_eq_right hm]
      · rw [Nat.min_eq_left (by omega), List.take_length, List.take_of_length_le (by omega)]
    rw [this]
    exact .pure _

theorem still_locations {w : World} {l : Locator} {r : Registry} :
    Still (licenseLocations (fun _ => w) l r) (Licensecc.licenseLocations w l r) := by
  cases l with
  | applicationFolder =>
    unfold licenseLocations Licensecc.licenseLocations
    refine .look ?_
    cases w.moduleName with
    | none => exact .look (.blind _)
    | some m =>
      refine .look ?_
      simp only
      split
      · exact .bind (.blind _) (fun _ => .pure _)
      · exact .bind (.blind _) (fun _ => .pure _)
  | environmentVarLocation =>
    unfold licenseLocations Licensecc.licenseLocations
    refine .look ?_
    rcases w.getenv locationVar with _ | ⟨_ | ⟨c, v⟩⟩
    · exact .bind (.blind _) (fun _ => .pure _)
    · exact .bind (.blind _) (fun _ => .pure _)
    · exact .bind still_filter (fun _ => .pure _)
  | environmentVarData => exact .look (.blind _)
  | externalDefinition loc =>
    obtain ⟨kind, data⟩ := loc
    unfold licenseLocations Licensecc.licenseLocations
    cases data with
    | nil => exact .blind _
    | cons c d =>
      simp only
      split
      · exact .pure _
      · refine .bind (.blind _) (fun r1 => ?_)
        split
        · exact .bind (.blind _) (fun _ => .bind still_filter (fun _ => .pure _))
        · split
          · exact .pure _
          · exact .blind _

theorem still_retrieve {w : World} {l : Locator} {b : Bool} {src : Bytes} :
    Still (retrieveContent (fun _ => w) l b src) (Licensecc.retrieveContent w l b src) := by
  cases l with
  | applicationFolder => exact still_contents
  | environmentVarLocation => exact still_contents
  | environmentVarData => exact .look (.blind _)
  | externalDefinition loc =>
    unfold retrieveContent Licensecc.retrieveContent
    simp only
    split
    · refine .bind (.blind _) (fun d => ?_)
      split
      · exact .blind _
      · exact .pure _
    · exact still_contents

theorem still_readLocations {w : World} {feature : Bytes} {l : Locator} {b : Bool} {locs : List Bytes} : ∀ {r : Registry},
    Still (readLocations (fun _ => w) feature l b r locs) (Licensecc.readLocations w feature l b r locs) := by
  induction locs with
  | nil => intro r; exact .pure _
  | cons src locs ih =>
    intro r
    rw [readLocations, Licensecc.readLocations]
    exact .bind still_retrieve (fun _ => .bind (.blind _) (fun _ => .bind ih (fun _ => .pure _)))

theorem still_readLocators {w : World} {feature : Bytes} {ls : List Locator} : ∀ {r : Registry},
    Still (readLocators (fun _ => w) feature r ls) (Licensecc.readLocators w feature r ls) := by
  induction ls with
  | nil => intro r; exact .pure _
  | cons l ls ih =>
    intro r
    rw [readLocators, Licensecc.readLocators]
    exact .bind still_locations (fun _ => .bind still_readLocations (fun _ => .bind ih (fun _ => .pure _)))

theorem still_readLicenses {cfg : Config} {w : World} {hint : Option LicenseLocation} {feature : Bytes} :
    Still (readLicenses cfg w.platform (fun _ => w) hint feature) (Licensecc.readLicenses cfg w hint feature) := by
  simp only [readLicenses, Licensecc.readLicenses]
  split
  · exact .bind (.blind _) (fun _ => .bind (.blind _) (fun _ => .pure _))
  · refine .bind still_readLocators (fun x => ?_)
    split
    · exact .bind (.blind _) (fun _ => .pure _)
    · exact .pure _

theorem still_verifyLimits {cfg : Config} {w : World} {lic : FullLicense} {r : Registry} {k : Nat} :
    Still (verifyLimits cfg (fun _ => w) lic r k) (Licensecc.verifyLimits cfg w lic r k) := by
  simp only [verifyLimits, Licensecc.verifyLimits]
  refine .look ?_
  split
  · refine .look (.bind (.blind _) (fun x => ?_))
    obtain ⟨r1, v1⟩ := x
    simp only
    split
    · refine .look (.bind (.blind _) (fun x => ?_))
      obtain ⟨r2, v2⟩ := x
      simp only
      split
      · exact .look (.bind (.blind _) (fun _ => .pure _))
      · exact .pure _
    · exact .pure _
  · exact .bind (.blind _) (fun _ => .pure _)

theorem still_judgeLoop {cfg : Config} {w : World} {caller : Option Caller} {ls : List FullLicense} : ∀ {r : Registry} {k : Nat},
    Still (judgeLoop cfg (fun _ => w) caller r k ls) (Licensecc.judgeLoop cfg w caller r k ls) := by
  induction ls with
  | nil => intro r k; exact .pure _
  | cons l ls ih =>
    intro r k
    rw [judgeLoop, Licensecc.judgeLoop]
    refine .look (.bind (.blind _) (fun x => .bind (.look (.look (.blind _))) (fun y => ?_)))
    obtain ⟨r1, g⟩ := x
    obtain ⟨i, k1⟩ := y
    simp only
    split
    · exact .bind still_verifyLimits (fun _ => .bind ih (fun _ => .pure _))
    · exact .bind ih (fun _ => .pure _)

theorem still_judge {cfg : Config} {w : World} {caller : Option Caller} {out : Option LicInfo} {r : Registry}
    {lics : List FullLicense} : Still (judge cfg (fun _ => w) caller out r lics) (Licensecc.judge cfg w caller out r lics) := by
  cases lics with
  | nil => exact .bind (.blind _) (fun _ => .bind (.blind _) (fun _ => .look (.blind _)))
  | cons l ls =>
    simp only [judge, Licensecc.judge]
    refine .bind still_judgeLoop (fun x => ?_)
    obtain ⟨r1, k, oks, errs⟩ := x
    cases oks with
    | nil => exact .bind (.blind _) (fun _ => .bind (.blind _) (fun _ => .look (.blind _)))
    | cons i is => exact .look (.blind _)

/-- **C82**: when nothing changes this is the `acquire_license` of the other properties. -/
theorem C82_same (cfg : Config) (w : World) (caller : Option Caller) (hint : Option LicenseLocation) (out : Option LicInfo) (n : Nat) :
    outcome ((acquire cfg w.platform (fun _ => w) caller hint out).run n) = Licensecc.acquire cfg w caller hint out :=
  Still.bind (.blind _) (fun _ => .bind still_readLicenses (fun _ => still_judge)) n

/-! ## Finding -/

/-- Nothing but recorded events. -/
abbrev Keeps (r r' : Registry) : Prop := AddHistory r → AddHistory r'

theorem keeps_add {r r' : Registry} {t : EventType} {a b : Option Bytes} (h : r.addEvent t a b = .ok r') : Keeps r r' :=
  fun hr => .add hr h

theorem filter_spec {ws : Worlds} {extra : Bytes} {ps : List Bytes} : ∀ {r r' : Registry} {fs : List Bytes} {n n' : Nat},
    (filterExistingFiles ws extra r ps).run n = .ok ((r', fs), n') →
    n ≤ n' ∧ Keeps r r' ∧ (∀ p ∈ fs, p ∈ ps ∧ ∃ j, n ≤ j ∧ j < n' ∧ (ws j).probe p = true)
      ∧ ∀ p ∈ ps, (∀ j, (ws j).probe p = true) → p ∈ fs := by
  induction ps with
  | nil =>
    intro r r' fs n n' h
    rw [filterExistingFiles, pure_ok] at h
    obtain ⟨rfl, h⟩ := h
    simp only [Prod.mk.injEq] at h
    obtain ⟨rfl, rfl⟩ := h
    exact ⟨Nat.le_refl _, id, by simp, by simp⟩
  | cons p ps ih =>
    intro r r' fs n n' h
    rw [filterExistingFiles, bind_blind] at h
    obtain ⟨r1, h1, h⟩ := h
    replace h := bind_look.mp h
    split at h
    · rename_i hp
      replace h := bind_blind.mp h
      obtain ⟨r2, h3, h⟩ := h
      replace h := bind_ok.mp h
      obtain ⟨⟨r3, fs'⟩, n4, h4, h⟩ := h
      replace h := pure_ok.mp h; obtain ⟨rfl, h⟩ := h
      simp only [Prod.mk.injEq] at h
      obtain ⟨rfl, rfl⟩ := h
      obtain ⟨g1, g2, g3, g4⟩ := ih h4
      refine ⟨by omega, fun hr => g2 (keeps_add h3 (keeps_add h1 hr)), ?_, ?_⟩
      · intro q hq
        rcases List.mem_cons.mp hq with rfl | hq
        · exact ⟨by simp, n, Nat.le_refl _, by omega, hp⟩
        · obtain ⟨a, j, b, c, d⟩ := g3 q hq
          exact ⟨by simp [a], j, by omega, c, d⟩
      · intro q hq hj
        rcases List.mem_cons.mp hq with rfl | hq
        · simp
        · simp [g4 q hq hj]
    · rename_i hp
      replace h := bind_blind.mp h
      obtain ⟨r2, h3, h⟩ := h
      obtain ⟨g1, g2, g3, g4⟩ := ih h
      refine ⟨by omega, fun hr => g2 (keeps_add h3 (keeps_add h1 hr)), ?_, ?_⟩
      · intro q hq
        obtain ⟨a, j, b, c, d⟩ := g3 q hq
        exact ⟨by simp [a], j, by omega, c, d⟩
      · intro q hq hj
        rcases List.mem_cons.mp hq with rfl | hq
        · exact absurd (hj _) hp
        · exact g4 q hq hj

theorem padded_get (s : Bytes) (size n : Nat) (h : n < size) :
    (s.take size ++ List.replicate (size - (s.take size).length) 0)[n]? = some (s[n]?.getD 0) := by
  rw [List.getElem?_append]
  split
  · rename_i hn
    rw [List.getElem?_take, if_pos h]
    rw [List.length_take] at hn
    rw [List.getElem?_eq_getElem (by omega)]
    rfl
  · rename_i hn
    rw [List.length_take] at hn ⊢
    rw [List.getElem?_replicate, if_pos (by omega), List.getElem?_eq_none (by omega)]
    rfl

theorem contents_spec {ws : Worlds} {p text : Bytes} {n n' : Nat} (h : (getFileContents ws p maxLicenseData).run n = .ok (text, n')) :
    n' = n + 2 ∧ ReadAs ws p n (n + 1) text := by
  unfold getFileContents at h
  replace h := bind_look.mp h
  cases hc : (ws n).read p with
  | none => rw [hc] at h; obtain ⟨_, h⟩ := blind_ok.mp h; simp at h
  | some c =>
    rw [hc] at h
    replace h := bind_look.mp h
    obtain ⟨rfl, rfl⟩ := pure_ok.mp h
    have hl : ∀ s : Bytes, ∀ m, (s.take m ++ List.replicate (m - (s.take m).length) 0).length = m := by
      intro s m; simp only [List.length_append, List.length_replicate, List.length_take]; omega
    refine ⟨rfl, c, hc, hl _ _, ?_⟩
    intro i hi
    rw [hl] at hi
    exact padded_get _ _ _ hi

theorem readAs_still {ws : Worlds} {p text c : Bytes} {i j : Nat} (h : ReadAs ws p i j text) (hi : (ws i).read p = some c)
    (hj : (ws j).read p = some c) : text = c.take 4096 := by
  obtain ⟨old, h1, h2, h3⟩ := h
  rw [hi] at h1; simp only [Option.some.injEq] at h1; subst h1
  rw [hj] at h3
  apply List.ext_getElem?
  intro n
  by_cases hn : n < text.length
  · rw [h3 n hn, List.getElem?_take, if_pos (by omega)]
    simp only [Option.getD_some]
    rw [List.getElem?_eq_getElem (by omega)]
    rfl
  · rw [List.getElem?_eq_none (by omega), List.getElem?_eq_none (by rw [List.length_take]; omega)]

/-- Locating and reading through one locator. -/
theorem locate_spec {cfg : Config} {ws : Worlds} {hint : Option LicenseLocation} {l : Locator} (hl : l ∈ activeStrategies cfg hint)
    {r r' : Registry} {locs : List Bytes} {b : Bool} {n n' : Nat} (h : (licenseLocations ws l r).run n = .ok ((r', locs, b), n')) :
    n ≤ n' ∧ Keeps r r' ∧ ∀ src ∈ locs, ∀ m m' text, n' ≤ m → (retrieveContent ws l b src).run m = .ok (text, m') →
      m ≤ m' ∧ Found cfg ws hint src text m' := by
  rw [mem_activeStrategies] at hl
  rcases hl with ⟨hn, rfl⟩ | ⟨he, rfl | rfl⟩ | ⟨loc, hh, rfl⟩
  · unfold licenseLocations at h
    replace h := bind_look.mp h
    simp only at h
    cases hm : (ws n).moduleName with
    | none =>
      rw [hm] at h
      replace h := bind_look.mp h
      replace h := blind_ok.mp h; obtain ⟨rfl, h⟩ := h
      simp only [logged_ok, Outcome.ok.injEq, Prod.mk.injEq] at h
      obtain ⟨_, rfl, rfl, rfl⟩ := h
      exact ⟨by omega, id, by simp⟩
    | some md =>
      rw [hm] at h
      replace h := bind_look.mp h
      split at h
      · rename_i hp
        replace h := bind_blind.mp h
        obtain ⟨r1, h3, h⟩ := h
        replace h := pure_ok.mp h; obtain ⟨rfl, h⟩ := h
        simp only [Prod.mk.injEq] at h
        obtain ⟨rfl, rfl, rfl⟩ := h
        refine ⟨by omega, keeps_add h3, ?_⟩
        intro src hs m m' text hnm hr
        simp only [List.mem_singleton] at hs; subst hs
        obtain ⟨rfl, hra⟩ := contents_spec hr
        exact ⟨by omega, .nearModule (i := n) (j := n + 1) (by omega) (by omega) (by omega) (by omega) hn hm hp hra⟩
      · replace h := bind_blind.mp h
        obtain ⟨r1, h3, h⟩ := h
        replace h := pure_ok.mp h; obtain ⟨rfl, h⟩ := h
        simp only [Prod.mk.injEq] at h
        obtain ⟨rfl, rfl, rfl⟩ := h
        exact ⟨by omega, keeps_add h3, by simp⟩
  · unfold licenseLocations at h
    replace h := bind_look.mp h
    simp only at h
    have none_case : (do
        let r ← blind (r.addEvent .envVarNotDefined none)
        return (r, [], false) : During (Registry × List Bytes × Bool)).run (n + 1) = .ok ((r', locs, b), n') →
        n ≤ n' ∧ Keeps r r' ∧ locs = [] := by
      clear h
      intro h
      replace h := bind_blind.mp h
      obtain ⟨r1, h3, h⟩ := h
      replace h := pure_ok.mp h; obtain ⟨rfl, h⟩ := h
      simp only [Prod.mk.injEq] at h
      obtain ⟨rfl, rfl, rfl⟩ := h
      exact ⟨by omega, keeps_add h3, rfl⟩
    cases hv : (ws n).getenv locationVar with
    | none =>
      rw [hv] at h
      obtain ⟨e1, e2, rfl⟩ := none_case h
      exact ⟨e1, e2, by simp⟩
    | some v =>
    cases v with
    | nil =>
      rw [hv] at h
      obtain ⟨e1, e2, rfl⟩ := none_case h
      exact ⟨e1, e2, by simp⟩
    | cons c v =>
      rw [hv] at h
      replace h := bind_ok.mp h
      obtain ⟨⟨r1, fs⟩, n2, h2, h⟩ := h
      obtain ⟨g1, g2, g3, _⟩ := filter_spec h2
      replace h := pure_ok.mp h; obtain ⟨rfl, h⟩ := h
      simp only [Prod.mk.injEq] at h
      obtain ⟨rfl, rfl, rfl⟩ := h
      refine ⟨by omega, g2, ?_⟩
      intro src hs m m' text hnm hr
      obtain ⟨g4, j, g5, g6, g7⟩ := g3 src hs
      obtain ⟨rfl, hra⟩ := contents_spec hr
      exact ⟨by omega, .envLocation (i := n) (j := j) (by omega) (by omega) (by omega) (by omega) he hv g4 g7 hra⟩
  · unfold licenseLocations at h
    replace h := bind_look.mp h
    replace h := blind_ok.mp h; obtain ⟨rfl, h⟩ := h
    refine ⟨by omega, (licenseLocations_adds h).history, ?_⟩
    intro src hs m m' text hnm hr
    unfold retrieveContent at hr
    replace hr := bind_look.mp hr
    replace hr := blind_ok.mp hr; obtain ⟨rfl, hr⟩ := hr
    refine ⟨by omega, ?_⟩
    -- the variable consulted when locating and the one consulted when reading differ
    let w' : World := { ws n with getenv := fun v => if v = locationVar then (ws m).getenv v else (ws n).getenv v }
    have e1 : Licensecc.licenseLocations w' .environmentVarData r = .ok (r', locs, b) := by
      rw [← h]; simp only [Licensecc.licenseLocations, w']; rfl
    have e2 : Licensecc.retrieveContent w' .environmentVarData b src = .ok text := by
      rw [← hr]; simp only [Licensecc.retrieveContent, w', if_true]
    obtain ⟨dat, v, h3, h4, rfl, h5, h6⟩ := (offers_envData e1 src text).mp ⟨hs, e2⟩
    have h3' : (ws n).getenv dataVar = some dat := h3
    have h5' : (ws m).getenv locationVar = some v := h5
    rcases h6 with ⟨h6, rfl⟩ | ⟨h6, h7, rest, h8⟩
    · exact .envData (i := n) (j := m) (by omega) (by omega) he h3' h4 h6 h5'
    · exact .envDataEncoded (i := n) (j := m) (by omega) (by omega) he h3' h4 h6 h5' h8 h7
  · unfold licenseLocations at h
    simp only at h
    cases hd : loc.data with
    | nil => rw [hd] at h; obtain ⟨_, h⟩ := blind_ok.mp h; simp at h
    | cons c0 mem =>
      rw [hd] at h
      simp only at h
      split at h
      · replace h := pure_ok.mp h; obtain ⟨rfl, h⟩ := h
        simp only [Prod.mk.injEq] at h
        obtain ⟨rfl, rfl, rfl⟩ := h
        exact ⟨by omega, id, by simp⟩
      · rename_i hc
        have hne : ∀ d, TextIn loc.data 4096 d → d ≠ [] := by
          rintro d ht rfl; rw [hd, textIn_nil] at ht; exact hc ht
        replace h := bind_blind.mp h
        obtain ⟨r1, h1, h⟩ := h
        split at h
        · rename_i hk
          replace h := bind_blind.mp h
          obtain ⟨d, h2, h⟩ := h
          replace h := bind_ok.mp h
          obtain ⟨⟨r2, fs⟩, n3, h3, h⟩ := h
          obtain ⟨g1, g2, g3, _⟩ := filter_spec h3
          replace h := pure_ok.mp h; obtain ⟨rfl, h⟩ := h
          simp only [Prod.mk.injEq] at h
          obtain ⟨rfl, rfl, rfl⟩ := h
          refine ⟨g1, fun hr => g2 (keeps_add h1 hr), ?_⟩
          intro src hs m m' text hnm hr
          obtain ⟨g4, j, g5, g6, g7⟩ := g3 src hs
          rw [← hd] at h2
          have ht : TextIn loc.data 4096 d := boundedString_iff.mp h2
          unfold retrieveContent at hr
          simp only at hr
          split at hr
          · rename_i hsrc
            replace hr := bind_blind.mp hr
            obtain ⟨d', h4, hr⟩ := hr
            rw [h2] at h4; simp only [Outcome.ok.injEq] at h4; subst h4
            rw [if_neg (by omega)] at hr
            obtain ⟨rfl, rfl⟩ := pure_ok.mp hr
            subst hsrc
            exact ⟨by omega, .hintPathOddName (j := j) (by omega) hh hk ht g4 g7⟩
          · rename_i hsrc
            obtain ⟨rfl, hra⟩ := contents_spec hr
            exact ⟨by omega, .hintPath (j := j) (by omega) (by omega) (by omega) hh hk ht g4 g7 hsrc hra⟩
        · rename_i hk0
          split at h
          · rename_i hk
            replace h := pure_ok.mp h; obtain ⟨rfl, h⟩ := h
            simp only [Prod.mk.injEq] at h
            obtain ⟨rfl, rfl, rfl⟩ := h
            refine ⟨by omega, keeps_add h1, ?_⟩
            intro src hs m m' text hnm hr
            simp only [List.mem_singleton] at hs; subst hs
            unfold retrieveContent at hr
            simp only [if_true] at hr
            replace hr := bind_blind.mp hr
            obtain ⟨d, h4, hr⟩ := hr
            have ht : TextIn loc.data 4096 d := boundedString_iff.mp h4
            split at hr
            · rename_i hk2
              replace hr := blind_ok.mp hr; obtain ⟨rfl, hr⟩ := hr
              obtain ⟨u, hu, hr⟩ := Outcome.bind_eq_ok.mp hr
              obtain ⟨h0, rest, rfl⟩ := stringOfVector_iff.mp hr
              exact ⟨by omega, .hintEncoded hh hk2 ht (hne d ht) hu h0⟩
            · obtain ⟨rfl, rfl⟩ := pure_ok.mp hr
              exact ⟨by omega, .hintPlain hh (by omega) ht (hne d ht)⟩
          · obtain ⟨_, h⟩ := blind_ok.mp h; simp at h

/-- The licences read are those of texts found; every location is read. -/
theorem readLocations_spec {cfg : Config} {ws : Worlds} {hint : Option LicenseLocation} {feature : Bytes} {l : Locator} {b : Bool}
    {n0 : Nat} {locs : List Bytes} : ∀ {r r' : Registry} {lics : List FullLicense} {n n' : Nat}, n0 ≤ n →
    (∀ src ∈ locs, ∀ m m' text, n0 ≤ m → (retrieveContent ws l b src).run m = .ok (text, m') →
      m ≤ m' ∧ Found cfg ws hint src text m') →
    (readLocations ws feature l b r locs).run n = .ok ((r', lics), n') →
    n ≤ n' ∧ Keeps r r'
    ∧ (∀ lic ∈ lics, ∃ src text t, t ≤ n' ∧ Found cfg ws hint src text t ∧ IsLicence feature src text lic)
    ∧ ∀ src ∈ locs, ∃ m m' text, (retrieveContent ws l b src).run m = .ok (text, m')
        ∧ ∀ lic, IsLicence feature src text lic → lic ∈ lics := by
  induction locs with
  | nil =>
    intro r r' lics n n' _ _ h
    rw [readLocations, pure_ok] at h
    obtain ⟨rfl, h⟩ := h
    simp only [Prod.mk.injEq] at h
    obtain ⟨rfl, rfl⟩ := h
    exact ⟨Nat.le_refl _, id, by simp, by simp⟩
  | cons s locs ih =>
    intro r r' lics n n' hn hloc h
    rw [readLocations] at h
    replace h := bind_ok.mp h
    obtain ⟨c, n1, h1, h⟩ := h
    replace h := bind_blind.mp h
    obtain ⟨⟨r1, o⟩, h2, h⟩ := h
    replace h := bind_ok.mp h
    obtain ⟨⟨r2, lics'⟩, n2, h3, h⟩ := h
    replace h := pure_ok.mp h; obtain ⟨rfl, h⟩ := h
    simp only [Prod.mk.injEq] at h
    obtain ⟨rfl, rfl⟩ := h
    obtain ⟨hm, hfound⟩ := hloc s (by simp) n n1 c hn h1
    obtain ⟨g1, g2, g3, g4⟩ := ih (by omega) (fun src hs => hloc src (by simp [hs])) h3
    have ho := readOne_spec h2
    have hadd : Keeps r r1 := by
      obtain ⟨_, _, h5⟩ := readOne_adds h2
      exact h5.history
    refine ⟨by omega, fun hr => g2 (hadd hr), ?_, ?_⟩
    · intro lic hl
      rw [List.mem_append, Option.mem_toList] at hl
      rcases hl with hl | hl
      · exact ⟨s, c, n1, by omega, hfound, (ho lic).mp hl⟩
      · exact g3 lic hl
    · intro src hs
      rcases List.mem_cons.mp hs with rfl | hs
      · exact ⟨n, n1, c, h1, fun lic hl => by rw [List.mem_append, Option.mem_toList]; exact .inl ((ho lic).mpr hl)⟩
      · obtain ⟨m, m', text, e1, e2⟩ := g4 src hs
        exact ⟨m, m', text, e1, fun lic hl => by rw [List.mem_append]; exact .inr (e2 lic hl)⟩

theorem readLocators_spec {cfg : Config} {ws : Worlds} {hint : Option LicenseLocation} {feature : Bytes} {ls : List Locator} :
    ∀ {r r' : Registry} {lics : List FullLicense} {n n' : Nat}, (∀ l ∈ ls, l ∈ activeStrategies cfg hint) →
    (readLocators ws feature r ls).run n = .ok ((r', lics), n') →
    n ≤ n' ∧ Keeps r r'
    ∧ (∀ lic ∈ lics, ∃ src text t, t ≤ n' ∧ Found cfg ws hint src text t ∧ IsLicence feature src text lic)
    ∧ ∀ l ∈ ls, ∃ r1 r2 locs b m m', (licenseLocations ws l r1).run m = .ok ((r2, locs, b), m')
        ∧ ∀ src ∈ locs, ∃ m m' text, (retrieveContent ws l b src).run m = .ok (text, m')
          ∧ ∀ lic, IsLicence feature src text lic → lic ∈ lics := by
  induction ls with
  | nil =>
    intro r r' lics n n' _ h
    rw [readLocators, pure_ok] at h
    obtain ⟨rfl, h⟩ := h
    simp only [Prod.mk.injEq] at h
    obtain ⟨rfl, rfl⟩ := h
    exact ⟨Nat.le_refl _, id, by simp, by simp⟩
  | cons l ls ih =>
    intro r r' lics n n' hact h
    rw [readLocators] at h
    replace h := bind_ok.mp h
    obtain ⟨⟨r1, locs, b⟩, n1, h1, h⟩ := h
    replace h := bind_ok.mp h
    obtain ⟨⟨r2, lics1⟩, n2, h2, h⟩ := h
    replace h := bind_ok.mp h
    obtain ⟨⟨r3, lics2⟩, n3, h3, h⟩ := h
    replace h := pure_ok.mp h; obtain ⟨rfl, h⟩ := h
    simp only [Prod.mk.injEq] at h
    obtain ⟨rfl, rfl⟩ := h
    obtain ⟨a1, a2, a3⟩ := locate_spec (hact l (by simp)) h1
    obtain ⟨b1, b2, b3, b4⟩ := readLocations_spec (Nat.le_refl _) a3 h2
    obtain ⟨c1, c2, c3, c4⟩ := ih (fun l hl => hact l (by simp [hl])) h3
    refine ⟨by omega, fun hr => c2 (b2 (a2 hr)), ?_, ?_⟩
    · intro lic hl
      rcases List.mem_append.mp hl with hl | hl
      · obtain ⟨src, text, t, e1, e2, e3⟩ := b3 lic hl
        exact ⟨src, text, t, by omega, e2, e3⟩
      · exact c3 lic hl
    · intro l' hl'
      rcases List.mem_cons.mp hl' with rfl | hl'
      · refine ⟨r, r1, locs, b, n, n1, h1, ?_⟩
        intro src hs
        obtain ⟨m, m', text, e1, e2⟩ := b4 src hs
        exact ⟨m, m', text, e1, fun lic hl => List.mem_append.mpr (.inl (e2 lic hl))⟩
      · obtain ⟨ra, rb, locs', b', m, m', e1, e2⟩ := c4 l' hl'
        refine ⟨ra, rb, locs', b', m, m', e1, ?_⟩
        intro src hs
        obtain ⟨m, m', text, e3, e4⟩ := e2 src hs
        exact ⟨m, m', text, e3, fun lic hl => List.mem_append.mpr (.inr (e4 lic hl))⟩

/-- Reading: the registry before warnings are turned into errors. -/
theorem readLicenses_spec {cfg : Config} {p : Platform} {ws : Worlds} {hint : Option LicenseLocation} {feature : Bytes} {r : Registry}
    {lics : List FullLicense} {n n' : Nat} (h : (readLicenses cfg p ws hint feature).run n = .ok ((r, lics), n')) :
    n ≤ n' ∧ (∃ r0, AddHistory r0 ∧ ((lics = [] ∧ ∃ b, r0.turnWarningsIntoErrors = .ok (r, b)) ∨ (lics ≠ [] ∧ r = r0)))
    ∧ (∀ lic ∈ lics, ∃ src text t, t ≤ n' ∧ Found cfg ws hint src text t ∧ IsLicence feature src text lic)
    ∧ ∀ l ∈ activeStrategies cfg hint, ∃ r1 r2 locs b m m', (licenseLocations ws l r1).run m = .ok ((r2, locs, b), m')
        ∧ ∀ src ∈ locs, ∃ m m' text, (retrieveContent ws l b src).run m = .ok (text, m')
          ∧ ∀ lic, IsLicence feature src text lic → lic ∈ lics := by
  simp only [readLicenses] at h
  split at h
  · rename_i he
    replace h := bind_blind.mp h
    obtain ⟨r1, h1, h⟩ := h
    replace h := bind_blind.mp h
    obtain ⟨⟨r2, b⟩, h2, h⟩ := h
    replace h := pure_ok.mp h; obtain ⟨rfl, h⟩ := h
    simp only [Prod.mk.injEq] at h
    obtain ⟨rfl, rfl⟩ := h
    simp only [List.isEmpty_iff] at he
    exact ⟨Nat.le_refl _, ⟨r1, .add (.empty _) h1, .inl ⟨rfl, b, h2⟩⟩, by simp, by rw [he]; simp⟩
  · replace h := bind_ok.mp h
    obtain ⟨⟨r1, lics1⟩, n1, h1, h⟩ := h
    obtain ⟨a1, a2, a3, a4⟩ := readLocators_spec (fun l hl => hl) h1
    simp only at h
    split at h
    · rename_i he
      replace h := bind_blind.mp h
      obtain ⟨⟨r2, b⟩, h2, h⟩ := h
      replace h := pure_ok.mp h; obtain ⟨rfl, h⟩ := h
      simp only [Prod.mk.injEq] at h
      obtain ⟨rfl, rfl⟩ := h
      simp only [List.isEmpty_iff] at he
      exact ⟨a1, ⟨r1, a2 (.empty _), .inl ⟨he, b, h2⟩⟩, a3, a4⟩
    · rename_i he
      replace h := pure_ok.mp h; obtain ⟨rfl, h⟩ := h
      simp only [Prod.mk.injEq] at h
      obtain ⟨rfl, rfl⟩ := h
      simp only [List.isEmpty_iff] at he
      exact ⟨a1, ⟨r1, a2 (.empty _), .inr ⟨he, rfl⟩⟩, a3, a4⟩

/-! ## Judging -/

theorem checkExpiry_keeps {w : World} {now : Int} {l : FullLicense} {r r' : Registry} {v : Bool}
    (h : checkExpiry w now l r = .ok (r', v)) : Keeps r r' := by
  unfold checkExpiry at h
  split at h
  · simp only [Outcome.ok.injEq, Prod.mk.injEq] at h; rw [h.1]; exact id
  · obtain ⟨t, _, h⟩ := Outcome.bind_eq_ok.mp h
    split at h
    · obtain ⟨r1, h1, h⟩ := Outcome.bind_eq_ok.mp h
      simp only [Outcome.pure_eq, Outcome.ok.injEq, Prod.mk.injEq] at h
      rw [← h.1]; exact keeps_add h1
    · simp only [Outcome.pure_eq, Outcome.ok.injEq, Prod.mk.injEq] at h; rw [h.1]; exact id

theorem checkBegin_keeps {w : World} {now : Int} {l : FullLicense} {r r' : Registry} {v : Bool}
    (h : checkBegin w now l r = .ok (r', v)) : Keeps r r' := by
  unfold checkBegin at h
  split at h
  · simp only [Outcome.ok.injEq, Prod.mk.injEq] at h; rw [h.1]; exact id
  · obtain ⟨t, _, h⟩ := Outcome.bind_eq_ok.mp h
    split at h
    · obtain ⟨r1, h1, h⟩ := Outcome.bind_eq_ok.mp h
      simp only [Outcome.pure_eq, Outcome.ok.injEq, Prod.mk.injEq] at h
      rw [← h.1]; exact keeps_add h1
    · simp only [Outcome.pure_eq, Outcome.ok.injEq, Prod.mk.injEq] at h; rw [h.1]; exact id

theorem checkClient_keeps {w : World} {l : FullLicense} {r r' : Registry} {v : Bool}
    (h : checkClient w l r = .ok (r', v)) : Keeps r r' := by
  unfold checkClient at h
  split at h
  · simp only [Outcome.ok.injEq, Prod.mk.injEq] at h; rw [h.1]; exact id
  · obtain ⟨t, _, h⟩ := Outcome.bind_eq_ok.mp h
    obtain ⟨r1, h1, h⟩ := Outcome.bind_eq_ok.mp h
    simp only [Outcome.pure_eq, Outcome.ok.injEq, Prod.mk.injEq] at h
    rw [← h.1]; exact keeps_add h1

theorem verifySignature_keeps {w : World} {l : FullLicense} {r r' : Registry} {g : Bool}
    (h : verifySignature w l r = .ok (r', g)) : Keeps r r' := by
  unfold verifySignature at h
  obtain ⟨g', h1, h⟩ := Outcome.bind_eq_ok.mp h
  obtain ⟨r1, h2, h⟩ := Outcome.bind_eq_ok.mp h
  simp only [Outcome.pure_eq, Outcome.ok.injEq, Prod.mk.injEq] at h
  rw [← h.1]; exact keeps_add h2

/-- The limits of a licence hold, each at a moment of its own. -/
def WithinAt (cfg : Config) (ws : Worlds) (l : FullLicense) (now : Int) (e f h : Nat) : Prop :=
  l.magic = cfg.magic
  ∧ (∀ d, SMap.find? kExpiry l.limits = some d → ∃ t, secondsFromEpoch (ws e).mktime d = .ok t ∧ now ≤ t)
  ∧ (∀ d, SMap.find? kBegin l.limits = some d → ∃ t, secondsFromEpoch (ws f).mktime d = .ok t ∧ t ≤ now)
  ∧ (∀ s, SMap.find? kClient l.limits = some s → ∃ x, HwId.ofString s = .ok x ∧ HwMatches (ws h).machine x)

theorem verifyLimits_spec {cfg : Config} {ws : Worlds} {l : FullLicense} {r r' : Registry} {k k' : Nat} {v : Bool} {n n' : Nat}
    (h : (verifyLimits cfg ws l r k).run n = .ok ((r', k', v), n')) :
    n < n' ∧ Keeps r r' ∧ (v = true → n' = n + 4) ∧ (v = true ↔ WithinAt cfg ws l ((ws n).clock k) (n + 1) (n + 2) (n + 3)) := by
  simp only [verifyLimits] at h
  replace h := bind_look.mp h
  unfold WithinAt
  split at h
  · rename_i hm
    replace h := bind_look.mp h
    replace h := bind_blind.mp h
    obtain ⟨⟨r1, v1⟩, h1, h⟩ := h
    have e1 := checkExpiry_ok h1
    have k1 := checkExpiry_keeps h1
    simp only at h
    split at h
    · rename_i hv1
      replace h := bind_look.mp h
      replace h := bind_blind.mp h
      obtain ⟨⟨r2, v2⟩, h2, h⟩ := h
      have e2 := checkBegin_ok h2
      have k2 := checkBegin_keeps h2
      simp only at h
      split at h
      · rename_i hv2
        replace h := bind_look.mp h
        replace h := bind_blind.mp h
        obtain ⟨⟨r3, v3⟩, h3, h⟩ := h
        have e3 := checkClient_ok h3
        have k3 := checkClient_keeps h3
        replace h := pure_ok.mp h; obtain ⟨rfl, h⟩ := h
        simp only [Prod.mk.injEq] at h
        obtain ⟨rfl, rfl, rfl⟩ := h
        refine ⟨by omega, fun hr => k3 (k2 (k1 hr)), fun _ => by omega, ?_⟩
        rw [e3]
        exact ⟨fun h => ⟨hm, e1.mp hv1, e2.mp hv2, h⟩, fun h => h.2.2.2⟩
      · rename_i hv2
        replace h := pure_ok.mp h; obtain ⟨rfl, h⟩ := h
        simp only [Prod.mk.injEq] at h
        obtain ⟨rfl, rfl, rfl⟩ := h
        refine ⟨by omega, fun hr => k2 (k1 hr), by simp, ?_⟩
        simp only [Bool.false_eq_true, false_iff]
        exact fun h => hv2 (e2.mpr h.2.2.1)
    · rename_i hv1
      replace h := pure_ok.mp h; obtain ⟨rfl, h⟩ := h
      simp only [Prod.mk.injEq] at h
      obtain ⟨rfl, rfl, rfl⟩ := h
      refine ⟨by omega, k1, by simp, ?_⟩
      simp only [Bool.false_eq_true, false_iff]
      exact fun h => hv1 (e1.mpr h.2.1)
  · rename_i hm
    replace h := bind_blind.mp h
    obtain ⟨r1, h1, h⟩ := h
    replace h := pure_ok.mp h; obtain ⟨rfl, h⟩ := h
    simp only [Prod.mk.injEq] at h
    obtain ⟨rfl, rfl, rfl⟩ := h
    refine ⟨by omega, keeps_add h1, by simp, ?_⟩
    simp only [Bool.false_eq_true, false_iff]
    exact fun h => hm h.1

/-- The loop: whoever is accepted was judged, moment after moment; who is accepted at all moments is accepted. -/
theorem judgeLoop_spec {cfg : Config} {ws : Worlds} {caller : Option Caller} {ls : List FullLicense} :
    ∀ {r r' : Registry} {k k' : Nat} {oks errs : List LicInfo} {n n' : Nat},
    (judgeLoop cfg ws caller r k ls).run n = .ok ((r', k', oks, errs), n') →
    n ≤ n' ∧ Keeps r r'
    ∧ (oks ≠ [] → ∃ l ∈ ls, ∃ s t j, n ≤ s ∧ s < t ∧ t + 3 < n' ∧ (ws s).verify l.printForSign l.signature = .ok true
        ∧ WithinAt cfg ws (withMagic caller l) ((ws t).clock j) (t + 1) (t + 2) (t + 3))
    ∧ ∀ l ∈ ls, (∀ s, (ws s).verify l.printForSign l.signature = .ok true) →
        (∀ t j, WithinAt cfg ws (withMagic caller l) ((ws t).clock j) (t + 1) (t + 2) (t + 3)) → oks ≠ [] := by
  induction ls with
  | nil =>
    intro r r' k k' oks errs n n' h
    rw [judgeLoop, pure_ok] at h
    obtain ⟨rfl, h⟩ := h
    simp only [Prod.mk.injEq] at h
    obtain ⟨rfl, rfl, rfl, rfl⟩ := h
    exact ⟨Nat.le_refl _, id, by simp, by simp⟩
  | cons l ls ih =>
    intro r r' k k' oks errs n n' h
    rw [judgeLoop] at h
    replace h := bind_look.mp h
    replace h := bind_blind.mp h
    obtain ⟨⟨r1, g⟩, h1, h⟩ := h
    have hv : (ws n).verify l.printForSign l.signature = .ok g := verifySignature_ok h1
    have k1 := verifySignature_keeps h1
    replace h := bind_ok.mp h
    obtain ⟨⟨i, k2⟩, n2, h2, h⟩ := h
    have hn2 : n2 = n + 3 := by
      unfold toLicenseInfo at h2
      replace h2 := bind_look.mp h2
      replace h2 := bind_look.mp h2
      replace h2 := blind_ok.mp h2
      omega
    subst hn2
    simp only at h
    split at h
    · rename_i hg
      replace h := bind_ok.mp h
      obtain ⟨⟨r2, k3, v⟩, n3, h3, h⟩ := h
      replace h := bind_ok.mp h
      obtain ⟨⟨r3, k4, oks', errs'⟩, n4, h4, h⟩ := h
      replace h := pure_ok.mp h; obtain ⟨rfl, h⟩ := h
      simp only [Prod.mk.injEq] at h
      obtain ⟨rfl, rfl, rfl, rfl⟩ := h
      obtain ⟨a1, a2, a3, a4⟩ := verifyLimits_spec h3
      obtain ⟨b1, b2, b3, b4⟩ := ih h4
      refine ⟨by omega, fun hr => b2 (a2 (k1 hr)), ?_, ?_⟩
      · intro hne
        cases v with
        | true =>
          have := a3 rfl
          exact ⟨l, by simp, n, n + 3, k2, by omega, by omega, by omega, by rw [hv, hg], a4.mp rfl⟩
        | false =>
          obtain ⟨l', hl', s, t, j, c1, c2, c3, c4, c5⟩ := b3 hne
          exact ⟨l', by simp [hl'], s, t, j, by omega, by omega, by omega, c4, c5⟩
      · intro l' hl' hs hw
        rcases List.mem_cons.mp hl' with rfl | hl'
        · have : v = true := a4.mpr (hw _ _)
          subst this; simp
        · have := b4 l' hl' hs hw
          cases v <;> simp [this]
    · rename_i hg
      replace h := bind_ok.mp h
      obtain ⟨⟨r3, k4, oks', errs'⟩, n4, h4, h⟩ := h
      replace h := pure_ok.mp h; obtain ⟨rfl, h⟩ := h
      simp only [Prod.mk.injEq] at h
      obtain ⟨rfl, rfl, rfl, rfl⟩ := h
      obtain ⟨b1, b2, b3, b4⟩ := ih h4
      refine ⟨by omega, fun hr => b2 (k1 hr), ?_, ?_⟩
      · intro hne
        obtain ⟨l', hl', s, t, j, c1, c2, c3, c4, c5⟩ := b3 hne
        exact ⟨l', by simp [hl'], s, t, j, by omega, by omega, by omega, c4, c5⟩
      · intro l' hl' hs hw
        rcases List.mem_cons.mp hl' with rfl | hl'
        · have := hs n
          rw [hv] at this
          simp only [Outcome.ok.injEq] at this
          exact absurd (by simp [this]) hg
        · exact b4 l' hl' hs hw

/-- What is returned in case of refusal is a failure. -/
theorem refused {r0 r : Registry} {b : Bool} {t : EventType} (hh : AddHistory r0) (h2 : r0.turnWarningsIntoErrors = .ok (r, b))
    (h3 : lastFailureType r = .ok t) : IsFailure t := by
  have hi : r0.Inv := (exact_addHistory hh).2.1
  obtain ⟨e, h4, h5⟩ := lastFailureType_ok h3
  obtain ⟨o, g1, g2, g3⟩ := getLastFailure_spec (inv_warn hi h2)
  rw [g1] at h4; simp only [Outcome.ok.injEq] at h4
  obtain ⟨k1, k2⟩ := g3 e h4
  have hf := failuresOnly_warn hi (failuresOnly_add hh) h2 e k1 (by rw [k2]; simp)
  rw [← h5]; exact hf

/-- What happened in a call that returns. -/
theorem acquire_spec {cfg : Config} {p : Platform} {ws : Worlds} {caller : Option Caller} {hint : Option LicenseLocation}
    {out : Option LicInfo} {res : AcquireResult} {n n' : Nat} (h : (acquire cfg p ws caller hint out).run n = .ok (res, n')) :
    ∃ feature r lics n1, FeatureIs cfg caller feature ∧ (readLicenses cfg p ws hint feature).run n = .ok ((r, lics), n1)
      ∧ ((res.ret ≠ .licenseOk ∧ lics = []) ∨ ∃ r' k oks errs n2, (judgeLoop cfg ws caller r 0 lics).run n1 = .ok ((r', k, oks, errs), n2)
          ∧ n2 ≤ n' ∧ (res.ret = .licenseOk ↔ oks ≠ [])) := by
  unfold acquire at h
  replace h := bind_blind.mp h
  obtain ⟨f, hf, h⟩ := h
  replace h := bind_ok.mp h
  obtain ⟨⟨r, lics⟩, n1, hr, h⟩ := h
  refine ⟨f, r, lics, n1, featureOf_iff.mp hf, hr, ?_⟩
  obtain ⟨a1, ⟨r0, a2, a3⟩, _, _⟩ := readLicenses_spec hr
  have ne : ∀ {t : EventType}, IsFailure t → t ≠ .licenseOk := by rintro t ht rfl; simp [IsFailure, stage] at ht
  cases lics with
  | nil =>
    left
    refine ⟨?_, rfl⟩
    simp only [judge] at h
    replace h := bind_blind.mp h
    obtain ⟨⟨r1, b⟩, h1, h⟩ := h
    replace h := bind_blind.mp h
    obtain ⟨t, h2, h⟩ := h
    replace h := bind_look.mp h
    replace h := blind_ok.mp h; obtain ⟨rfl, h⟩ := h
    obtain ⟨e1, e2, _⟩ := finish_ok h
    rcases a3 with ⟨_, b0, hw0⟩ | ⟨hne, _⟩
    · have hi : r0.Inv := (exact_addHistory a2).2.1
      obtain ⟨b', hid⟩ := turnWarnings_idem hi hw0
      rw [hid] at h1
      simp only [Outcome.ok.injEq, Prod.mk.injEq] at h1
      rw [e1]
      exact ne (refused a2 hw0 (by rw [h1.1]; exact h2))
    · exact absurd rfl hne
  | cons l ls =>
    right
    simp only [judge] at h
    replace h := bind_ok.mp h
    obtain ⟨⟨r1, k, oks, errs⟩, n2, h1, h⟩ := h
    refine ⟨r1, k, oks, errs, n2, h1, ?_⟩
    obtain ⟨b1, b2, _, _⟩ := judgeLoop_spec h1
    have hr0 : r = r0 := by
      rcases a3 with ⟨hnil, _⟩ | ⟨_, e⟩
      · simp at hnil
      · exact e
    subst hr0
    cases oks with
    | cons i is =>
      simp only at h
      replace h := bind_look.mp h
      replace h := blind_ok.mp h; obtain ⟨rfl, h⟩ := h
      obtain ⟨e1, _⟩ := finish_ok h
      exact ⟨by omega, by simp [e1]⟩
    | nil =>
      simp only at h
      replace h := bind_blind.mp h
      obtain ⟨⟨r2, b⟩, h2, h⟩ := h
      replace h := bind_blind.mp h
      obtain ⟨t, h3, h⟩ := h
      replace h := bind_look.mp h
      replace h := blind_ok.mp h; obtain ⟨rfl, h⟩ := h
      obtain ⟨e1, _⟩ := finish_ok h
      refine ⟨by omega, ?_⟩
      have := ne (refused (b2 a2) h2 h3)
      simp [e1, this]

/-! ## The property -/

/-- **C82**: whatever happens to files, environment, time zone, clock and hardware during the call, LICENSE_OK is returned only if a
    licence text that was found during the call, taken as it was read, then granted the feature: its signature was accepted, and after
    that every limit was checked against one reading of the clock. -/
theorem C82_sound {cfg : Config} {p : Platform} {ws : Worlds} {caller : Option Caller} {hint : Option LicenseLocation}
    {out : Option LicInfo} {res : AcquireResult} {n' : Nat} (h : (acquire cfg p ws caller hint out).run 0 = .ok (res, n'))
    (hok : res.ret = .licenseOk) :
    ∃ feature src text t, FeatureIs cfg caller feature ∧ Found cfg ws hint src text t
      ∧ GrantedBetween cfg ws (magicOf caller) feature text t n' := by
  obtain ⟨f, r, lics, n1, hf, hr, ⟨hne, _⟩ | ⟨r', k, oks, errs, n2, hj, hn2, hiff⟩⟩ := acquire_spec h
  · exact absurd hok hne
  · obtain ⟨_, _, a3, _⟩ := readLicenses_spec hr
    obtain ⟨_, _, b3, _⟩ := judgeLoop_spec hj
    obtain ⟨l, hl, s, t, j, c1, c2, c3, c4, c5, c6, c7, c8⟩ := b3 (hiff.mp hok)
    obtain ⟨src, text, t0, d1, d2, d3⟩ := a3 l hl
    refine ⟨f, src, text, t0, hf, d2, ⟨⟨_, d3.signature⟩, (Ini.toLong_200 _).mp d3.version⟩, ?_, s, t, t + 1, t + 2, t + 3, j, by omega,
      c2, by omega, by omega, by omega, by omega, ⟨l.signature, l.printForSign, d3.signature, signingData_of_licence d3, c4⟩, ?_, ?_, ?_⟩
    · rw [← c5]; cases caller <;> simp [withMagic, magicOf, d3.magic]
    · intro d hd; exact c6 d ((d3.limits _ _).mpr hd)
    · intro d hd; exact c7 d ((d3.limits _ _).mpr hd)
    · intro d hd; exact c8 d ((d3.limits _ _).mpr hd)

theorem contents_still {ws : Worlds} {p c text : Bytes} {n n' : Nat} (hs : ∀ i, (ws i).read p = some c)
    (h : (getFileContents ws p maxLicenseData).run n = .ok (text, n')) : text = c.take 4096 :=
  readAs_still (contents_spec h).2 (hs _) (hs _)

theorem external_still {ws : Worlds} {loc : LicenseLocation} {d : Bytes} {r r' : Registry} {locs : List Bytes} {b : Bool} {n n' : Nat}
    (ht : TextIn loc.data 4096 d) (hne : d ≠ []) (h : (licenseLocations ws (.externalDefinition loc) r).run n = .ok ((r', locs, b), n')) :
    (loc.kind = 0 ∧ ∀ p ∈ splitString d 59, (∀ j, (ws j).probe p = true) → p ∈ locs)
    ∨ ((loc.kind = 1 ∨ loc.kind = 2) ∧ locs = [externalName]) := by
  unfold licenseLocations at h
  simp only at h
  cases hd : loc.data with
  | nil => rw [hd] at h; obtain ⟨_, h⟩ := blind_ok.mp h; simp at h
  | cons c0 mem =>
    rw [hd] at h
    simp only at h
    split at h
    · rename_i hc
      subst hc
      rw [hd] at ht
      exact absurd (textIn_unique ht (textIn_nil.mpr rfl)) hne
    · replace h := bind_blind.mp h
      obtain ⟨r1, h1, h⟩ := h
      split at h
      · rename_i hk
        replace h := bind_blind.mp h
        obtain ⟨d', h2, h⟩ := h
        rw [← hd, boundedString_iff] at h2
        have := textIn_unique ht h2
        subst this
        replace h := bind_ok.mp h
        obtain ⟨⟨r2, fs⟩, n3, h3, h⟩ := h
        obtain ⟨_, _, _, g4⟩ := filter_spec h3
        replace h := pure_ok.mp h; obtain ⟨rfl, h⟩ := h
        simp only [Prod.mk.injEq] at h
        obtain ⟨rfl, rfl, rfl⟩ := h
        exact .inl ⟨hk, g4⟩
      · split at h
        · rename_i hk
          replace h := pure_ok.mp h; obtain ⟨rfl, h⟩ := h
          simp only [Prod.mk.injEq] at h
          exact .inr ⟨hk, h.2.1.symm⟩
        · obtain ⟨_, h⟩ := blind_ok.mp h; simp at h

theorem splitString_ne {s p : Bytes} {c : UInt8} (h : p ∈ splitString s c) : s ≠ [] := by
  rintro rfl; simp [splitString_nil] at h

/-- What is offered and holds still is found. -/
theorem locate_still {cfg : Config} {ws : Worlds} {w : World} {hint : Option LicenseLocation} {src text : Bytes}
    (hs : HoldsStill ws w src) (ho : Offers cfg w hint src text) :
    ∃ l ∈ activeStrategies cfg hint, ∀ r r' locs b n n', (licenseLocations ws l r).run n = .ok ((r', locs, b), n') →
      src ∈ locs ∧ ∀ m m' text', (retrieveContent ws l b src).run m = .ok (text', m') → text' = text := by
  have envStill : ∀ {dat v text : Bytes}, cfg.withEnvVar = true → HoldsStill ws w locationVar → w.getenv dataVar = some dat → dat ≠ [] →
      w.getenv locationVar = some v → ((identifyFormat dat = .ini ∧ text = v) ∨
          (identifyFormat dat = .base64 ∧ 0 ∉ text ∧ ∃ rest, unbase64 v = .ok (text ++ 0 :: rest))) →
      ∃ l ∈ activeStrategies cfg hint, ∀ r r' locs b n n', (licenseLocations ws l r).run n = .ok ((r', locs, b), n') →
        locationVar ∈ locs ∧ ∀ m m' text', (retrieveContent ws l b locationVar).run m = .ok (text', m') → text' = text := by
    intro dat v text he hs h1 h2 h3 h4
    refine ⟨.environmentVarData, mem_activeStrategies.mpr (.inr (.inl ⟨he, .inr rfl⟩)), ?_⟩
    intro r r' locs b n n' h
    unfold licenseLocations at h
    replace h := bind_look.mp h
    replace h := blind_ok.mp h; obtain ⟨rfl, h⟩ := h
    have e : Licensecc.licenseLocations w .environmentVarData r = .ok (r', locs, b) := by
      rw [← h]; simp only [Licensecc.licenseLocations, (hs n).2.1]
    obtain ⟨g1, g2⟩ := (offers_envData e locationVar text).mpr ⟨dat, v, h1, h2, rfl, h3, h4⟩
    refine ⟨g1, ?_⟩
    intro m m' text' hr
    unfold retrieveContent at hr
    replace hr := bind_look.mp hr
    replace hr := blind_ok.mp hr; obtain ⟨rfl, hr⟩ := hr
    have e : Licensecc.retrieveContent w .environmentVarData b locationVar = .ok text' := by
      rw [← hr]; simp only [Licensecc.retrieveContent, (hs m).2.1]
    rw [g2] at e
    simpa using e.symm
  cases ho with
  | @nearModule md c h1 h2 h3 h4 =>
    refine ⟨.applicationFolder, mem_activeStrategies.mpr (.inl ⟨h1, rfl⟩), ?_⟩
    intro r r' locs b n n' h
    unfold licenseLocations at h
    replace h := bind_look.mp h
    rw [(hs n).1, h2] at h
    simp only at h
    replace h := bind_look.mp h
    have hp : (ws (n + 1)).probe (removeExtension md ++ licenseExt) = true := by rw [(hs (n + 1)).2.2.1, h3]
    rw [if_pos hp] at h
    replace h := bind_blind.mp h
    obtain ⟨r1, _, h⟩ := h
    replace h := pure_ok.mp h; obtain ⟨rfl, h⟩ := h
    simp only [Prod.mk.injEq] at h
    obtain ⟨rfl, rfl, rfl⟩ := h
    exact ⟨by simp, fun m m' text' hr => contents_still (fun i => by rw [(hs i).2.2.2, h4]) hr⟩
  | @envLocation v _ c h1 h2 h3 h4 h5 =>
    refine ⟨.environmentVarLocation, mem_activeStrategies.mpr (.inr (.inl ⟨h1, .inl rfl⟩)), ?_⟩
    intro r r' locs b n n' h
    unfold licenseLocations at h
    replace h := bind_look.mp h
    rw [(hs n).2.1, h2] at h
    cases v with
    | nil => exact absurd rfl (splitString_ne h3)
    | cons x v =>
      simp only at h
      replace h := bind_ok.mp h
      obtain ⟨⟨r1, fs⟩, n2, h6, h⟩ := h
      obtain ⟨_, _, _, g4⟩ := filter_spec h6
      replace h := pure_ok.mp h; obtain ⟨rfl, h⟩ := h
      simp only [Prod.mk.injEq] at h
      obtain ⟨rfl, rfl, rfl⟩ := h
      exact ⟨g4 _ h3 (fun j => by rw [(hs j).2.2.1, h4]),
        fun m m' text' hr => contents_still (fun i => by rw [(hs i).2.2.2, h5]) hr⟩
  | envData h1 h2 h3 h4 h5 => exact envStill h1 hs h2 h3 h5 (.inl ⟨h4, rfl⟩)
  | envDataEncoded h1 h2 h3 h4 h5 h6 h7 => exact envStill h1 hs h2 h3 h5 (.inr ⟨h4, h7, _, h6⟩)
  | @hintPath loc d _ c h1 h2 h3 h4 h5 h6 h7 =>
    refine ⟨.externalDefinition loc, mem_activeStrategies.mpr (.inr (.inr ⟨_, h1, rfl⟩)), ?_⟩
    intro r r' locs b n n' h
    rcases external_still h3 (splitString_ne h4) h with ⟨_, g⟩ | ⟨hk, _⟩
    · refine ⟨g _ h4 (fun j => by rw [(hs j).2.2.1, h5]), ?_⟩
      intro m m' text' hr
      unfold retrieveContent at hr
      simp only at hr
      rw [if_neg h6] at hr
      exact contents_still (fun i => by rw [(hs i).2.2.2, h7]) hr
    · omega
  | @hintPathOddName loc d h1 h2 h3 h4 h5 =>
    refine ⟨.externalDefinition loc, mem_activeStrategies.mpr (.inr (.inr ⟨_, h1, rfl⟩)), ?_⟩
    intro r r' locs b n n' h
    rcases external_still h3 (splitString_ne h4) h with ⟨_, g⟩ | ⟨hk, _⟩
    · refine ⟨g _ h4 (fun j => by rw [(hs j).2.2.1, h5]), ?_⟩
      intro m m' text' hr
      unfold retrieveContent at hr
      simp only [if_true] at hr
      replace hr := bind_blind.mp hr
      obtain ⟨d', h6, hr⟩ := hr
      have := textIn_unique h3 (boundedString_iff.mp h6)
      subst this
      rw [if_neg (by omega)] at hr
      exact (pure_ok.mp hr).2.symm
    · omega
  | @hintPlain loc d h1 h2 h3 h4 =>
    refine ⟨.externalDefinition loc, mem_activeStrategies.mpr (.inr (.inr ⟨_, h1, rfl⟩)), ?_⟩
    intro r r' locs b n n' h
    rcases external_still h3 h4 h with ⟨hk, _⟩ | ⟨_, rfl⟩
    · omega
    · refine ⟨by simp, ?_⟩
      intro m m' text' hr
      unfold retrieveContent at hr
      simp only [if_true] at hr
      replace hr := bind_blind.mp hr
      obtain ⟨d', h6, hr⟩ := hr
      have := textIn_unique h3 (boundedString_iff.mp h6)
      subst this
      rw [if_neg (by omega)] at hr
      exact (pure_ok.mp hr).2.symm
  | @hintEncoded loc d _ rest h1 h2 h3 h4 h5 h6 =>
    refine ⟨.externalDefinition loc, mem_activeStrategies.mpr (.inr (.inr ⟨_, h1, rfl⟩)), ?_⟩
    intro r r' locs b n n' h
    rcases external_still h3 h4 h with ⟨hk, _⟩ | ⟨_, rfl⟩
    · omega
    · refine ⟨by simp, ?_⟩
      intro m m' text' hr
      unfold retrieveContent at hr
      simp only [if_true] at hr
      replace hr := bind_blind.mp hr
      obtain ⟨d', h7, hr⟩ := hr
      have := textIn_unique h3 (boundedString_iff.mp h7)
      subst this
      rw [if_pos h2, h5] at hr
      replace hr := blind_ok.mp hr
      have e := stringOfVector_iff.mpr ⟨h6, rest, rfl⟩
      have := hr.2
      simp only [Outcome.ok_bind] at this
      rw [e] at this
      simpa using this.symm

/-- **C82**: a licence that is where it is throughout the call, and grants the feature throughout, is honoured whatever else changes:
    if the call returns, it returns LICENSE_OK. -/
theorem C82_complete {cfg : Config} {p : Platform} {ws : Worlds} {w : World} {caller : Option Caller} {hint : Option LicenseLocation}
    {out : Option LicInfo} {res : AcquireResult} {n' : Nat} (h : (acquire cfg p ws caller hint out).run 0 = .ok (res, n'))
    {feature src text : Bytes} (hf : FeatureIs cfg caller feature) (hs : HoldsStill ws w src) (ho : Offers cfg w hint src text)
    (hg : ∀ i j k, Grants cfg (ws i) (magicOf caller) feature text ((ws j).clock k)) : res.ret = .licenseOk := by
  obtain ⟨f, r, lics, n1, hf', hr, hc⟩ := acquire_spec h
  have := featureIs_unique hf hf'; subst this
  obtain ⟨_, _, _, a4⟩ := readLicenses_spec hr
  obtain ⟨loc, hl, hloc⟩ := locate_still hs ho
  obtain ⟨r1, r2, locs, b, m, m', e1, e2⟩ := a4 loc hl
  obtain ⟨g1, g2⟩ := hloc _ _ _ _ _ _ e1
  obtain ⟨m1, m2, text', e3, e4⟩ := e2 src g1
  have := g2 _ _ _ e3; subst this
  obtain ⟨l, hisl⟩ := exists_licence (src := src) (hg 0 0 0).complete
  have hmem := e4 l hisl
  rcases hc with ⟨_, hnil⟩ | ⟨r', k, oks, errs, n2, hj, _, hiff⟩
  · subst hnil; simp at hmem
  · obtain ⟨_, _, _, b4⟩ := judgeLoop_spec hj
    have acc : ∀ i j k, Accepted cfg (ws i) caller l ((ws j).clock k) := fun i j k => (accepted_iff hisl _).mpr (hg i j k)
    refine hiff.mpr (b4 l hmem (fun s => (acc s 0 0).1) (fun t j => ?_))
    have a1 := (acc (t + 1) t j).2
    have a2 := (acc (t + 2) t j).2
    have a3 := (acc (t + 3) t j).2
    exact ⟨a1.1, a1.2.1, a2.2.2.1, a3.2.2.2⟩

/-! ## Nothing is read twice -/

/-- What `x` does in one course of events, `x'` does in another that is the same for as long as `x` runs. -/
def Local {α : Type} (ws ws' : Worlds) (x x' : During α) : Prop := ∀ n a n', x.run n = .ok (a, n') →
  n ≤ n' ∧ ((∀ i, n ≤ i → i < n' → ws i = ws' i) → x'.run n = .ok (a, n'))

variable {ws ws' : Worlds}

theorem Local.pure {α : Type} (a : α) : Local ws ws' (Pure.pure a) (Pure.pure a) := by
  intro n b n' h
  exact ⟨by have := (pure_ok.mp h).1; omega, fun _ => h⟩

theorem Local.blind {α : Type} (x : Outcome α) : Local ws ws' (Changing.blind x) (Changing.blind x) := by
  intro n b n' h
  exact ⟨by have := (blind_ok.mp h).1; omega, fun _ => h⟩

theorem Local.bind {α β : Type} {x x' : During α} {f f' : α → During β} (hx : Local ws ws' x x')
    (hf : ∀ a, Local ws ws' (f a) (f' a)) : Local ws ws' (x >>= f) (x' >>= f') := by
  intro n b n' h
  obtain ⟨a, m, h1, h2⟩ := bind_ok.mp h
  obtain ⟨g1, g2⟩ := hx _ _ _ h1
  obtain ⟨k1, k2⟩ := hf _ _ _ _ h2
  refine ⟨by omega, fun hw => bind_ok.mpr ⟨a, m, g2 (fun i hi hi' => hw i hi (by omega)), k2 (fun i hi hi' => hw i (by omega) hi')⟩⟩

theorem Local.look {β : Type} {f f' : World → During β} (hf : ∀ w, Local ws ws' (f w) (f' w)) :
    Local ws ws' (Changing.look ws >>= f) (Changing.look ws' >>= f') := by
  intro n b n' h
  obtain ⟨k1, k2⟩ := hf _ _ _ _ (bind_look.mp h)
  refine ⟨by omega, fun hw => bind_look.mpr ?_⟩
  rw [← hw n (Nat.le_refl _) (by omega)]
  exact k2 (fun i hi hi' => hw i (by omega) hi')

theorem local_filter {extra : Bytes} {ps : List Bytes} : ∀ {r : Registry},
    Local ws ws' (filterExistingFiles ws extra r ps) (filterExistingFiles ws' extra r ps) := by
  induction ps with
  | nil => intro r; exact .pure _
  | cons p ps ih =>
    intro r
    rw [filterExistingFiles, filterExistingFiles]
    refine .bind (.blind _) (fun r1 => .look (fun w => ?_))
    split
    · exact .bind (.blind _) (fun r2 => .bind ih (fun _ => .pure _))
    · exact .bind (.blind _) (fun r2 => ih)

theorem local_contents {p : Bytes} {m : Nat} : Local ws ws' (getFileContents ws p m) (getFileContents ws' p m) := by
  unfold getFileContents
  refine .look (fun w => ?_)
  split
  · exact .blind _
  · exact .look (fun w => .pure _)

theorem local_locations {l : Locator} {r : Registry} : Local ws ws' (licenseLocations ws l r) (licenseLocations ws' l r) := by
  cases l with
  | applicationFolder =>
    unfold licenseLocations
    refine .look (fun w => ?_)
    split
    · exact .look (fun w => .blind _)
    · refine .look (fun w => ?_)
      split
      · exact .bind (.blind _) (fun _ => .pure _)
      · exact .bind (.blind _) (fun _ => .pure _)
  | environmentVarLocation =>
    unfold licenseLocations
    refine .look (fun w => ?_)
    split
    · exact .bind local_filter (fun _ => .pure _)
    · exact .bind (.blind _) (fun _ => .pure _)
  | environmentVarData => exact .look (fun w => .blind _)
  | externalDefinition loc =>
    unfold licenseLocations
    simp only
    split
    · exact .blind _
    · split
      · exact .pure _
      · refine .bind (.blind _) (fun r1 => ?_)
        split
        · exact .bind (.blind _) (fun _ => .bind local_filter (fun _ => .pure _))
        · split
          · exact .pure _
          · exact .blind _

theorem local_retrieve {l : Locator} {b : Bool} {src : Bytes} :
    Local ws ws' (retrieveContent ws l b src) (retrieveContent ws' l b src) := by
  cases l with
  | applicationFolder => exact local_contents
  | environmentVarLocation => exact local_contents
  | environmentVarData => exact .look (fun w => .blind _)
  | externalDefinition loc =>
    unfold retrieveContent
    simp only
    split
    · refine .bind (.blind _) (fun d => ?_)
      split
      · exact .blind _
      · exact .pure _
    · exact local_contents

theorem local_readLocations {feature : Bytes} {l : Locator} {b : Bool} {locs : List Bytes} : ∀ {r : Registry},
    Local ws ws' (readLocations ws feature l b r locs) (readLocations ws' feature l b r locs) := by
  induction locs with
  | nil => intro r; exact .pure _
  | cons src locs ih =>
    intro r
    rw [readLocations, readLocations]
    exact .bind local_retrieve (fun _ => .bind (.blind _) (fun _ => .bind ih (fun _ => .pure _)))

theorem local_readLocators {feature : Bytes} {ls : List Locator} : ∀ {r : Registry},
    Local ws ws' (readLocators ws feature r ls) (readLocators ws' feature r ls) := by
  induction ls with
  | nil => intro r; exact .pure _
  | cons l ls ih =>
    intro r
    rw [readLocators, readLocators]
    exact .bind local_locations (fun _ => .bind local_readLocations (fun _ => .bind ih (fun _ => .pure _)))

theorem local_readLicenses {cfg : Config} {p : Platform} {hint : Option LicenseLocation} {feature : Bytes} :
    Local ws ws' (readLicenses cfg p ws hint feature) (readLicenses cfg p ws' hint feature) := by
  simp only [readLicenses]
  split
  · exact .bind (.blind _) (fun _ => .bind (.blind _) (fun _ => .pure _))
  · refine .bind local_readLocators (fun x => ?_)
    split
    · exact .bind (.blind _) (fun _ => .pure _)
    · exact .pure _

/-- Computations with the same outcomes. -/
theorem During.ext {α : Type} {x y : During α} (h : ∀ n, x.run n = y.run n) : x = y := by
  cases x; cases y; congr; exact funext h

theorem bind_congr {α β : Type} {x y : During α} {f g : α → During β} (hx : x = y) (hf : ∀ a, f a = g a) : (x >>= f) = (y >>= g) := by
  rw [hx, funext hf]

theorem look_congr {β : Type} {f g : World → During β} (hf : ∀ n, f (ws n) = g (ws' n)) : (look ws >>= f) = (look ws' >>= g) := by
  apply During.ext
  intro n
  show (f (ws n)).run (n + 1) = (g (ws' n)).run (n + 1)
  rw [hf]

theorem verifyLimits_congr (hs : ∀ n, SameBesidesFiles (ws n) (ws' n)) {cfg : Config} {l : FullLicense} {r : Registry} {k : Nat} :
    verifyLimits cfg ws l r k = verifyLimits cfg ws' l r k := by
  simp only [verifyLimits]
  refine look_congr (fun n => ?_)
  rw [(hs n).clock]
  split
  · refine look_congr (fun m => ?_)
    have e1 : ∀ now, checkExpiry (ws m) now l r = checkExpiry (ws' m) now l r := by intro now; simp only [checkExpiry, (hs m).mktime]
    rw [e1]
    refine bind_congr rfl (fun x => ?_)
    split
    · refine look_congr (fun m => ?_)
      have e2 : ∀ now r, checkBegin (ws m) now l r = checkBegin (ws' m) now l r := by intro now r; simp only [checkBegin, (hs m).mktime]
      rw [e2]
      refine bind_congr rfl (fun x => ?_)
      split
      · refine look_congr (fun m => ?_)
        have e3 : ∀ r, checkClient (ws m) l r = checkClient (ws' m) l r := by intro r; simp only [checkClient, (hs m).machine]
        rw [e3]
      · rfl
    · rfl
  · rfl

theorem judgeLoop_congr (hs : ∀ n, SameBesidesFiles (ws n) (ws' n)) {cfg : Config} {caller : Option Caller} {ls : List FullLicense} :
    ∀ {r : Registry} {k : Nat}, judgeLoop cfg ws caller r k ls = judgeLoop cfg ws' caller r k ls := by
  induction ls with
  | nil => intro r k; rfl
  | cons l ls ih =>
    intro r k
    rw [judgeLoop, judgeLoop]
    refine look_congr (fun n => ?_)
    have e1 : ∀ l r, verifySignature (ws n) l r = verifySignature (ws' n) l r := by
      intro l r; simp only [verifySignature, (hs n).verify]
    rw [e1]
    refine bind_congr rfl (fun x => ?_)
    obtain ⟨r1, g⟩ := x
    refine bind_congr ?_ (fun y => ?_)
    · unfold toLicenseInfo
      refine look_congr (fun n => look_congr (fun m => ?_))
      simp only [Licensecc.toLicenseInfo, (hs n).mktime, (hs m).clock]
    · obtain ⟨i, k1⟩ := y
      simp only
      split
      · rw [verifyLimits_congr hs]
        refine bind_congr rfl (fun z => ?_)
        obtain ⟨r2, k2, v⟩ := z
        simp only
        rw [ih]
      · rw [ih]

theorem judge_congr (hs : ∀ n, SameBesidesFiles (ws n) (ws' n)) {cfg : Config} {caller : Option Caller} {out : Option LicInfo}
    {r : Registry} {lics : List FullLicense} : judge cfg ws caller out r lics = judge cfg ws' caller out r lics := by
  have fin : ∀ {t : EventType} {r : Registry} {k : Nat} {o : Option LicInfo},
      (do let w ← look ws; blind (finish w t r k o)) = (do let w ← look ws'; blind (finish w t r k o) : During AcquireResult) := by
    intro t r k o
    refine look_congr (fun n => ?_)
    simp only [finish, (hs n).junk]
  cases lics with
  | nil => exact bind_congr rfl (fun _ => bind_congr rfl (fun _ => fin))
  | cons l ls =>
    simp only [judge]
    rw [judgeLoop_congr hs]
    refine bind_congr rfl (fun x => ?_)
    obtain ⟨r1, k, oks, errs⟩ := x
    cases oks with
    | nil => exact bind_congr rfl (fun _ => bind_congr rfl (fun _ => fin))
    | cons i is => exact fin

/-- **C82**: nothing is read twice.  Once the licences have been read, at moment `n1`, it makes no difference what happens to files,
    environment variables and executable: what is checked and enforced is the text that was read. -/
theorem C82_read_once {cfg : Config} {p : Platform} {caller : Option Caller} {hint : Option LicenseLocation} {out : Option LicInfo}
    {feature : Bytes} {x : Registry × List FullLicense} {n1 : Nat} (hf : FeatureIs cfg caller feature)
    (hr : (readLicenses cfg p ws hint feature).run 0 = .ok (x, n1)) (hsame : ∀ n, n < n1 → ws n = ws' n)
    (hs : ∀ n, SameBesidesFiles (ws n) (ws' n)) :
    (acquire cfg p ws' caller hint out).run 0 = (acquire cfg p ws caller hint out).run 0 := by
  have hr' := (local_readLicenses (ws := ws) (ws' := ws') 0 x n1 hr).2 (fun i _ hi => hsame i hi)
  have key : ∀ us : Worlds, (readLicenses cfg p us hint feature).run 0 = .ok (x, n1) →
      (acquire cfg p us caller hint out).run 0 = (judge cfg us caller out x.1 x.2).run n1 := by
    intro us hu
    have e : featureOf cfg caller = .ok feature := featureOf_iff.mpr hf
    unfold acquire
    rw [e]
    show (During.bind (readLicenses cfg p us hint feature) fun y => judge cfg us caller out y.1 y.2).run 0 = _
    unfold During.bind
    simp only [hu]
  rw [key ws hr, key ws' hr', judge_congr hs]

/-! ## The hypotheses are met -/

/-- The licence file of the sample disappears once it has been read (moments 0 to 3). -/
def vanishing (n : Nat) : World := if n < 4 then sampleWorld sampleNow else { sampleWorld sampleNow with probe := fun _ => false, read := fun _ => none }

/-- It is replaced by another one between being looked for and being read. -/
def replaced (n : Nat) : World :=
  if n < 2 then { sampleWorld sampleNow with read := fun _ => some (b!"nothing") } else sampleWorld sampleNow

/-- It is truncated between being measured and being read. -/
def truncated (n : Nat) : World :=
  if n < 3 then sampleWorld sampleNow else { sampleWorld sampleNow with read := fun _ => some (sampleText.take 60) }

def retAt (ws : Worlds) : Option EventType :=
  retOf (outcome ((acquire sampleConfig .linux ws (some sampleCaller) none none).run 0))

theorem vanishing_ok : retAt vanishing = some .licenseOk := by decide +kernel
theorem replaced_ok : retAt replaced = some .licenseOk := by decide +kernel
theorem truncated_malformed : retAt truncated = some .malformed := by decide +kernel

theorem retAt_ok {ws : Worlds} {t : EventType} (h : retAt ws = some t) :
    ∃ res n', (acquire sampleConfig .linux ws (some sampleCaller) none none).run 0 = .ok (res, n') ∧ res.ret = t := by
  unfold retAt at h
  obtain ⟨res, h1, h2⟩ := retOf_ok h
  cases hh : (acquire sampleConfig .linux ws (some sampleCaller) none none).run 0 with
  | ok x => rw [hh] at h1; simp only [outcome, Outcome.ok.injEq] at h1; exact ⟨x.1, x.2, rfl, by rw [h1, h2]⟩
  | throw e => rw [hh] at h1; simp [outcome] at h1
  | ub => rw [hh] at h1; simp [outcome] at h1

/-- C82_sound speaks about the vanishing file. -/
example : ∃ res n', (acquire sampleConfig .linux vanishing (some sampleCaller) none none).run 0 = .ok (res, n') ∧ res.ret = .licenseOk :=
  retAt_ok vanishing_ok

/-- All other files come, go and change all the time. -/
def busy (n : Nat) : World :=
  { sampleWorld sampleNow with
    probe := fun p => if p = b!"/opt/app.lic" then true else n % 2 = 0
    read := fun p => if p = b!"/opt/app.lic" then some sampleText else some (List.replicate n 65) }

/-- C82_complete speaks about it. -/
example : ∃ res n', (acquire sampleConfig .linux busy (some sampleCaller) none none).run 0 = .ok (res, n') ∧ res.ret = .licenseOk
    ∧ ∃ feature src text, FeatureIs sampleConfig (some sampleCaller) feature ∧ HoldsStill busy (sampleWorld sampleNow) src
      ∧ Offers sampleConfig (sampleWorld sampleNow) none src text
      ∧ ∀ i j k, Grants sampleConfig (busy i) (magicOf (some sampleCaller)) feature text ((busy j).clock k) := by
  obtain ⟨res0, f, src, text, h1, h2, h3, h4⟩ := sample_grants
  obtain ⟨res, n', h5, h6⟩ := retAt_ok (ws := busy) (t := .licenseOk) (by decide +kernel)
  refine ⟨res, n', h5, h6, f, src, text, h2, ?_, h3, ?_⟩
  · have hsrc : src = b!"/opt/app.lic" := by
      cases h3 with
      | nearModule _ hm hp _ => exact of_decide_eq_true hp
      | envLocation h => simp [sampleConfig] at h
      | envData h => simp [sampleConfig] at h
      | envDataEncoded h => simp [sampleConfig] at h
      | hintPath h => simp at h
      | hintPathOddName h => simp at h
      | hintPlain h => simp at h
      | hintEncoded h => simp at h
    subst hsrc
    exact fun n => ⟨rfl, rfl, rfl, rfl⟩
  · intro i j k
    have g := h4 0 (Nat.zero_le _)
    exact ⟨g.complete, g.signed, g.magic, g.notExpired, g.started, g.machine⟩

/-- The moment at which a computation ends. -/
def endOf {α : Type} : Outcome (α × Nat) → Option Nat
  | .ok (_, n) => some n
  | _ => none

theorem endOf_some {α : Type} {x : Outcome (α × Nat)} {n : Nat} (h : endOf x = some n) : ∃ a, x = .ok (a, n) := by
  cases x with
  | ok p => simp only [endOf, Option.some.injEq] at h; exact ⟨p.1, by rw [← h]⟩
  | throw e => simp [endOf] at h
  | ub => simp [endOf] at h

/-- C82_read_once speaks about the vanishing file. -/
example : ∃ x, (readLicenses sampleConfig .linux (fun _ => sampleWorld sampleNow) none (b!"test")).run 0 = .ok (x, 4)
    ∧ (∀ n, n < 4 → sampleWorld sampleNow = vanishing n) ∧ ∀ n, SameBesidesFiles (sampleWorld sampleNow) (vanishing n) := by
  obtain ⟨x, hx⟩ := endOf_some (x := (readLicenses sampleConfig .linux (fun _ => sampleWorld sampleNow) none (b!"test")).run 0) (n := 4)
    (by decide +kernel)
  refine ⟨x, hx, ?_, ?_⟩
  · intro n hn; simp [vanishing, hn]
  · intro n
    unfold vanishing
    split
    · exact ⟨rfl, rfl, rfl, rfl, rfl⟩
    · exact ⟨rfl, rfl, rfl, rfl, rfl⟩

end Licensecc.Changing
