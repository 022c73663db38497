import Verif.Model.AuditArrays
import Verif.Props.Info
/-!
# C80: the strings in the audit events handed back
-/
namespace Licensecc
open Spec Registry
set_option linter.unusedSimpArgs false

namespace Audit

/-- An array read as a C string: the characters in front of the first NUL; `none` if there is none, and the reader leaves the array. -/
def cString (array : Bytes) : Option Bytes := if 0 ∈ array then some (array.takeWhile (· ≠ 0)) else none

theorem cstr_no_nul (s : Bytes) : (0 : UInt8) ∉ s.takeWhile (· ≠ 0) := by
  induction s with
  | nil => simp
  | cons c s ih =>
    rw [List.takeWhile_cons]
    by_cases hc : c = 0
    · simp [hc]
    · simp only [ne_eq, hc, not_false_eq_true, decide_true, if_true, List.mem_cons, not_or]
      exact ⟨fun h => hc h.symm, ih⟩

theorem take_no_nul {s : Bytes} (h : (0 : UInt8) ∉ s) (n : Nat) : (0 : UInt8) ∉ s.take n := fun hm => h (List.mem_of_mem_take hm)

theorem cString_append {s : Bytes} (h : (0 : UInt8) ∉ s) (t : Bytes) : cString (s ++ 0 :: t) = some s := by
  unfold cString
  rw [if_pos (by simp)]
  congr 1
  rw [List.takeWhile_append_of_pos (by intro x hx; simp only [ne_eq, decide_eq_true_eq]; rintro rfl; exact h hx)]
  simp

theorem cString_strncpy (dst src : Bytes) (n : Nat) (hlen : n ≤ dst.length) :
    (strncpy dst src n).length = dst.length
    ∧ cString (strncpy dst src n) = (if ((src.takeWhile (· ≠ 0)).take n).length < n then some ((src.takeWhile (· ≠ 0)).take n)
        else (cString (dst.drop n)).map ((src.takeWhile (· ≠ 0)).take n ++ ·)) := by
  have h0 := take_no_nul (cstr_no_nul src) n
  have hle : ((src.takeWhile (· ≠ 0)).take n).length ≤ n := by rw [List.length_take]; omega
  unfold strncpy
  generalize (src.takeWhile (· ≠ 0)).take n = s at h0 hle
  refine ⟨by simp; omega, ?_⟩
  simp only
  by_cases hs : s.length < n
  · rw [if_pos hs]
    obtain ⟨k, hk⟩ : ∃ k, n - s.length = k + 1 := ⟨n - s.length - 1, by omega⟩
    rw [hk, List.replicate_succ, List.append_assoc, List.cons_append]
    exact cString_append h0 _
  · rw [if_neg hs, show n - s.length = 0 by omega]
    simp only [List.replicate_zero, List.append_nil]
    unfold cString
    by_cases hd : (0 : UInt8) ∈ dst.drop n
    · rw [if_pos hd, if_pos (by simp [hd])]
      simp only [Option.map_some, Option.some.injEq]
      rw [List.takeWhile_append_of_pos (by intro x hx; simp only [ne_eq, decide_eq_true_eq]; rintro rfl; exact h0 hx)]
    · rw [if_neg hd, if_neg (by simp [hd, h0])]; rfl

/-- The event has complete strings in both arrays. -/
def Complete (p : Platform) (ref info : Option Bytes) : Prop :=
  (∀ r, ref = some r → (r.takeWhile (· ≠ 0)).length < pathRoom p) ∧ ∀ i, info = some i → (i.takeWhile (· ≠ 0)).length < 255

end Audit

open Audit

/-- **C80**: what a caller reads in the two arrays of an event, whatever was in their memory before: the location and the explanation, if these are shorter than
    MAX_PATH and 255. A longer location leaves no NUL in its array. -/
theorem C80_arrays (p : Platform) (t : EventType) (ref info : Option Bytes) (old1 old2 : Bytes) (h1 : old1.length = pathRoom p) (h2 : old2.length = 256) :
    (Audit.reference p old1 ref).length = pathRoom p ∧ (param2 old2 info).length = 256
    ∧ (cString (Audit.reference p old1 ref) = none ↔ ∃ r, ref = some r ∧ pathRoom p ≤ (r.takeWhile (· ≠ 0)).length)
    ∧ (Audit.Complete p ref info →
        cString (Audit.reference p old1 ref) = some (match ref with | none => b!"UNDEF" | some r => r.takeWhile (· ≠ 0))
        ∧ cString (param2 old2 info) = some (match info with | none => [] | some i => i.takeWhile (· ≠ 0))
        ∧ some (mkEvent p t ref info).ref = cString (Audit.reference p old1 ref) ∧ some (mkEvent p t ref info).info = cString (param2 old2 info)) := by
  have hroom : pathRoom p = p.maxPath := by cases p <;> rfl
  rw [hroom] at h1
  unfold Audit.Complete
  simp only [hroom]
  have hr : ∀ r, ref = some r → _ := fun r _ => cString_strncpy old1 r p.maxPath (by omega)
  have hi : ∀ i, info = some i → _ := fun i _ => cString_strncpy old2 i 255 (by omega)
  have hdrop : cString (old1.drop p.maxPath) = none := by
    rw [List.drop_of_length_le (by omega)]; rfl
  have hu : cString (Audit.reference p old1 none) = some b!"UNDEF" := by
    unfold Audit.reference strcpy
    exact cString_append (by decide) _
  have hmax : 6 ≤ p.maxPath := by cases p <;> decide
  refine ⟨?_, ?_, ?_, ?_⟩
  · cases ref with
    | none =>
      unfold Audit.reference strcpy
      simp only [List.length_append, List.length_cons, List.length_drop]
      rw [show (List.takeWhile (· ≠ 0) b!"UNDEF").length = 5 by decide]
      omega
    | some r => rw [← h1]; exact (hr r rfl).1
  · cases info with
    | none => unfold param2; simp; omega
    | some i => rw [← h2]; exact (hi i rfl).1
  · cases ref with
    | none => rw [hu]; simp
    | some r =>
      have h3 := (hr r rfl).2
      rw [show Audit.reference p old1 (some r) = strncpy old1 r p.maxPath from rfl, h3, hdrop]
      by_cases hlt : ((r.takeWhile (· ≠ 0)).take p.maxPath).length < p.maxPath
      · rw [if_pos hlt]
        rw [List.length_take] at hlt
        simp only [reduceCtorEq, false_iff, not_exists, not_and]
        rintro r' he
        cases he
        omega
      · rw [if_neg hlt]
        rw [List.length_take] at hlt
        simp only [Option.map_none, true_iff]
        exact ⟨r, rfl, by omega⟩
  · rintro ⟨hc1, hc2⟩
    have e1 : cString (Audit.reference p old1 ref) = some (match (generalizing := false) ref with | none => b!"UNDEF" | some r => r.takeWhile (· ≠ 0)) := by
      cases ref with
      | none => exact hu
      | some r =>
        have hlt := hc1 r rfl
        rw [show Audit.reference p old1 (some r) = strncpy old1 r p.maxPath from rfl, (hr r rfl).2, List.take_of_length_le (by omega), if_pos hlt]
    have e2 : cString (param2 old2 info) = some (match (generalizing := false) info with | none => [] | some i => i.takeWhile (· ≠ 0)) := by
      cases info with
      | none => exact cString_append (s := []) (by simp) _
      | some i =>
        have hlt := hc2 i rfl
        rw [show param2 old2 (some i) = strncpy old2 i 255 from rfl, (hi i rfl).2, List.take_of_length_le (by omega), if_pos hlt]
    refine ⟨e1, e2, ?_, ?_⟩
    · rw [e1]
      congr 1
      cases ref with
      | none => rfl
      | some r =>
        have hlt := hc1 r rfl
        exact List.take_of_length_le (by simpa [cstr] using Nat.le_of_lt hlt)
    · rw [e2]
      congr 1
      cases info with
      | none => rfl
      | some i =>
        have hlt := hc2 i rfl
        exact List.take_of_length_le (by simpa [cstr] using Nat.le_of_lt hlt)

namespace Audit

/-- A location that fits. -/
def Fits (p : Platform) (ref : Option Bytes) : Prop := ∀ r, ref = some r → (r.takeWhile (· ≠ 0)).length < pathRoom p

theorem fits_of_ref {p : Platform} {t : EventType} {ref info : Option Bytes} (h : (mkEvent p t ref info).ref.length < pathRoom p) : Fits p ref := by
  rintro r rfl
  have hroom : pathRoom p = p.maxPath := by cases p <;> rfl
  have e : (mkEvent p t (some r) info).ref = (r.takeWhile (· ≠ 0)).take p.maxPath := rfl
  rw [e, List.length_take, hroom] at h
  rw [hroom]; omega

theorem adds_fits {r r' : Registry} {es : List Entry} (h : Adds r es r') :
    r.step ≤ r'.step ∧ (∀ b : Int, r.step ≤ b → (∀ x ∈ es, ∀ s, progress x.1 = some s → s ≤ b) → r'.step ≤ b)
    ∧ ∀ x ∈ es, Fits r.platform x.2.1 ∨ ∃ s, progress x.1 = some s ∧ s < r'.step := by
  induction h with
  | nil => exact ⟨Int.le_refl _, fun _ h _ => h, by simp⟩
  | @cons r r1 r' t a b es h1 _ ih =>
    obtain ⟨i1, i2, i3⟩ := ih
    have hp := addEvent_platform h1
    obtain ⟨_, hc⟩ := addEvent_cases h1
    have hstep : r.step ≤ r1.step ∧ (∀ c : Int, r.step ≤ c → (∀ s, progress t = some s → s ≤ c) → r1.step ≤ c)
        ∧ (Fits r.platform a ∨ ∃ s, progress t = some s ∧ s < r1.step) := by
      rcases hc with ⟨s, h2, h3, h4, h5, _⟩ | ⟨h2, h4, h5, _⟩ | ⟨s, h2, h3, h5, _⟩ | ⟨h2, h4, h5, _⟩
      · exact ⟨by omega, fun c _ hc => by rw [h5]; exact hc s h2, .inl (fits_of_ref h4)⟩
      · exact ⟨by omega, fun c hc _ => by omega, .inl (fits_of_ref h4)⟩
      · exact ⟨by omega, fun c hc _ => by omega, .inr ⟨s, h2, by omega⟩⟩
      · exact ⟨by omega, fun c hc _ => by omega, .inl (fits_of_ref h4)⟩
    obtain ⟨j1, j2, j3⟩ := hstep
    refine ⟨by omega, ?_, ?_⟩
    · intro c hc hall
      exact i2 c (j2 c hc (fun s hs => hall _ (List.mem_cons_self ..) s hs)) (fun x hx => hall x (List.mem_cons_of_mem _ hx))
    · intro x hx
      rcases List.mem_cons.mp hx with rfl | hx
      · rcases j3 with h | ⟨s, hs, hlt⟩
        · exact .inl h
        · exact .inr ⟨s, hs, by omega⟩
      · rcases i3 x hx with h | h
        · exact .inl (by rw [← hp]; exact h)
        · exact .inr h

/-- An event whose location is always looked at while searching. -/
def Looked (x : Entry) : Prop := progress x.1 = none ∨ x.1 = .productFound

/-- What is known about the events of the search: the stage is at most PRODUCT_FOUND, the explanation is short, and the location is a short constant or comes again in an
    event that is looked at. -/
def SearchOk (p : Platform) (all : List Entry) (x : Entry) : Prop :=
  (∀ s, progress x.1 = some s → s ≤ 2) ∧ (x.2.2 = none ∨ x.2.2 = some locationVar ∨ x.2.2 = some externalName)
  ∧ (x.2.1 = none ∨ x.2.1 = some locationVar ∨ x.2.1 = some externalName ∨ ∃ y ∈ all, y.2.1 = x.2.1 ∧ Looked y)

theorem SearchOk.mono {p : Platform} {all all' : List Entry} {x : Entry} (h : SearchOk p all x) (hs : ∀ y ∈ all, y ∈ all') : SearchOk p all' x := by
  obtain ⟨h1, h2, h3⟩ := h
  refine ⟨h1, h2, ?_⟩
  rcases h3 with h | h | h | ⟨y, hy, h⟩
  · exact .inl h
  · exact .inr (.inl h)
  · exact .inr (.inr (.inl h))
  · exact .inr (.inr (.inr ⟨y, hs y hy, h⟩))

theorem read_looked {w : World} {f : Bytes} {l : Locator} {b : Bool} {locs : List Bytes} {es : List Entry} {lics : List FullLicense} (p : Platform)
    (h : ReadEntries w f l b locs es lics) :
    (∀ src ∈ locs, ∃ y ∈ es, y.2.1 = some src ∧ Looked y) ∧ (∀ x ∈ es, SearchOk p es x) ∧ ∀ lic ∈ lics, ∃ y ∈ es, y.2.1 = some lic.source ∧ Looked y := by
  induction h with
  | nil => exact ⟨by simp, by simp, by simp⟩
  | @cons src srcs text ts es lic lics h1 h2 h3 _ ih =>
    obtain ⟨i1, i2, i3⟩ := ih
    have hts : ∃ t ts', ts = t :: ts' ∧ Looked (t, some src, none) ∧ ∀ t ∈ ts, ∀ s, progress t = some s → s ≤ 2 := by
      rcases h2 with ⟨_, _, rfl⟩ | ⟨_, _, _, rfl⟩ | ⟨_, _, rfl⟩
      · exact ⟨_, _, rfl, .inl rfl, by simp [progress]⟩
      · exact ⟨_, _, rfl, .inr rfl, by simp [progress]⟩
      · exact ⟨_, _, rfl, .inr rfl, by simp [progress]⟩
    obtain ⟨t, ts', e, hl, hp⟩ := hts
    have hy : (t, some src, (none : Option Bytes)) ∈ ts.map (fun t => ((t, some src, none) : Entry)) ++ es := by
      rw [e]; simp
    refine ⟨?_, ?_, ?_⟩
    · intro s hs
      rcases List.mem_cons.mp hs with rfl | hs
      · exact ⟨_, hy, rfl, hl⟩
      · obtain ⟨y, h4, h5⟩ := i1 s hs
        exact ⟨y, by simp [h4], h5⟩
    · intro x hx
      rcases List.mem_append.mp hx with hx | hx
      · obtain ⟨t0, ht0, rfl⟩ := List.mem_map.mp hx
        exact ⟨hp t0 ht0, .inl rfl, .inr (.inr (.inr ⟨_, hy, rfl, hl⟩))⟩
      · exact (i2 x hx).mono (fun y hy => by simp [hy])
    · intro x hx
      rcases List.mem_append.mp hx with hx | hx
      · have := (h3 x).mp (by simpa using hx)
        exact ⟨_, hy, by rw [this.source], hl⟩
      · obtain ⟨y, h4, h5⟩ := i3 x hx
        exact ⟨y, by simp [h4], h5⟩

theorem file_looked {w : World} {extra : Bytes} (he : extra = locationVar ∨ extra = externalName) {ps : List Bytes} {es : List Entry} (p : Platform)
    (hread : ∀ src ∈ ps.filter w.probe, ∃ y ∈ es, y.2.1 = some src ∧ Looked y) :
    ∀ x ∈ fileEntries w extra ps, SearchOk p (fileEntries w extra ps ++ es) x := by
  intro x hx
  have hlook : ∀ q ∈ ps, ∃ y ∈ fileEntries w extra ps ++ es, y.2.1 = some q ∧ Looked y := by
    intro q hq
    by_cases hp : w.probe q = true
    · obtain ⟨y, h1, h2⟩ := hread q (by simp [hq, hp])
      exact ⟨y, by simp [h1], h2⟩
    · refine ⟨(.fileNotFound, some q, some extra), ?_, rfl, .inl rfl⟩
      apply List.mem_append_left
      unfold fileEntries
      rw [List.mem_flatMap]
      exact ⟨q, hq, by simp [hp]⟩
  unfold fileEntries at hx
  rw [List.mem_flatMap] at hx
  obtain ⟨q, hq, hx⟩ := hx
  have hi : (some extra = none ∨ some extra = some locationVar ∨ some extra = some externalName) := by
    rcases he with rfl | rfl
    · exact .inr (.inl rfl)
    · exact .inr (.inr rfl)
  simp only [List.mem_cons, List.not_mem_nil, or_false] at hx
  rcases hx with rfl | rfl
  · exact ⟨by simp [progress], hi, .inr (.inr (.inr (hlook q hq)))⟩
  · refine ⟨?_, hi, .inr (.inr (.inr (hlook q hq)))⟩
    intro s
    simp only
    split <;> simp [progress]
    omega

theorem locate_looked {w : World} {f : Bytes} {l : Locator} {r r' : Registry} {locs : List Bytes} {b : Bool} {es : List Entry} {lics : List FullLicense} (p : Platform)
    (h : licenseLocations w l r = .ok (r', locs, b)) (hr : ReadEntries w f l b locs es lics) : ∀ x ∈ locateEntries w l, SearchOk p (locateEntries w l ++ es) x := by
  have hread := (read_looked p hr).1
  cases l with
  | applicationFolder =>
    simp only [licenseLocations, locateEntries] at h ⊢
    cases hm : w.moduleName with
    | none => simp
    | some m =>
      simp only [hm] at h ⊢
      intro x hx
      simp only [List.mem_singleton] at hx
      subst hx
      refine ⟨?_, .inl rfl, .inr (.inr (.inr ?_))⟩
      · intro s
        simp only
        split <;> simp [progress]
        omega
      · by_cases hp : w.probe (removeExtension m ++ licenseExt) = true
        · simp only [hp, if_true] at h
          obtain ⟨r1, h1, h⟩ := Outcome.bind_eq_ok.mp h
          simp only [Outcome.pure_eq, Outcome.ok.injEq, Prod.mk.injEq] at h
          obtain ⟨_, rfl, _⟩ := h
          obtain ⟨y, h2, h3⟩ := hread _ (List.mem_singleton.mpr rfl)
          exact ⟨y, by simp [h2], h3⟩
        · exact ⟨_, by simp, rfl, .inl (by simp [hp, progress])⟩
  | environmentVarLocation =>
    simp only [licenseLocations, locateEntries] at h ⊢
    rcases hv : w.getenv locationVar with _ | ⟨_ | ⟨c, v⟩⟩ <;> simp only [hv] at h ⊢
    · simp [SearchOk, progress]
    · simp [SearchOk, progress]
    · obtain ⟨⟨r1, fs⟩, h1, h⟩ := Outcome.bind_eq_ok.mp h
      simp only [Outcome.pure_eq, Outcome.ok.injEq, Prod.mk.injEq] at h
      obtain ⟨_, rfl, _⟩ := h
      rw [filterExistingFiles_mem h1] at hread
      exact file_looked (.inl rfl) p hread
  | environmentVarData =>
    simp only [locateEntries]
    rcases hv : w.getenv dataVar with _ | ⟨_ | ⟨c, v⟩⟩ <;> simp only [hv]
    · simp [SearchOk, progress]
    · simp [SearchOk, progress]
    · intro x hx
      refine ⟨?_, .inl ?_, .inr (.inl ?_)⟩
      all_goals
        rcases List.mem_cons.mp hx with rfl | hx
        · first | rfl | simp [progress]
        · split at hx
          · simp only [List.mem_singleton] at hx; subst hx
            first | rfl | simp [progress]
          · simp at hx
  | externalDefinition loc =>
    obtain ⟨kind, data⟩ := loc
    cases data with
    | nil => simp [licenseLocations] at h
    | cons c data =>
      simp only [licenseLocations, locateEntries] at h ⊢
      by_cases hc : c = 0
      · simp [hc]
      · simp only [hc, if_false] at h ⊢
        obtain ⟨r1, h1, h⟩ := Outcome.bind_eq_ok.mp h
        have hfirst : ∀ all, SearchOk p all (.specified, some externalName, none) := fun all =>
          ⟨by simp [progress], .inl rfl, .inr (.inr (.inl rfl))⟩
        by_cases hk : kind = 0
        · simp only [hk, if_true] at h ⊢
          obtain ⟨d, hd, h⟩ := Outcome.bind_eq_ok.mp h
          obtain ⟨⟨r2, fs⟩, h2, h⟩ := Outcome.bind_eq_ok.mp h
          simp only [Outcome.pure_eq, Outcome.ok.injEq, Prod.mk.injEq] at h
          obtain ⟨_, rfl, _⟩ := h
          rw [hd]
          rw [filterExistingFiles_mem h2] at hread
          intro x hx
          rcases List.mem_cons.mp hx with rfl | hx
          · exact hfirst _
          · exact (file_looked (.inr rfl) p hread x hx).mono (fun y hy => by
              rw [List.cons_append]; exact List.mem_cons_of_mem _ hy)
        · simp only [hk, if_false] at h ⊢
          intro x hx
          simp only [List.mem_singleton] at hx
          subst hx
          exact hfirst _

theorem search_looked {w : World} {f : Bytes} {ls : List Locator} {es : List Entry} {lics : List FullLicense} (p : Platform) (h : SearchEntries w f ls es lics) :
    (∀ x ∈ es, SearchOk p es x) ∧ ∀ lic ∈ lics, ∃ y ∈ es, y.2.1 = some lic.source ∧ Looked y := by
  induction h with
  | nil => exact ⟨by simp, by simp⟩
  | @cons l ls r r' locs b es es' lics lics' h1 h2 _ ih =>
    obtain ⟨i1, i2⟩ := ih
    obtain ⟨_, j2, j3⟩ := read_looked p h2
    refine ⟨?_, ?_⟩
    · intro x hx
      rcases List.mem_append.mp hx with hx | hx
      · rcases List.mem_append.mp hx with hx | hx
        · exact (locate_looked p h1 h2 x hx).mono (fun y hy => List.mem_append_left _ hy)
        · exact (j2 x hx).mono (fun y hy => List.mem_append_left _ (List.mem_append_right _ hy))
      · exact (i1 x hx).mono (fun y hy => List.mem_append_right _ hy)
    · intro x hx
      rcases List.mem_append.mp hx with hx | hx
      · obtain ⟨y, h4, h5⟩ := j3 x hx
        exact ⟨y, by simp [h4], h5⟩
      · obtain ⟨y, h4, h5⟩ := i2 x hx
        exact ⟨y, by simp [h4], h5⟩

theorem const_fits (p : Platform) {ref : Option Bytes} (h : ref = none ∨ ref = some locationVar ∨ ref = some externalName) : Fits p ref := by
  rintro r rfl
  rcases h with h | h | h
  · cases h
  · cases h; cases p <;> decide
  · cases h; cases p <;> decide

theorem search_fits {w : World} {f : Bytes} {ls : List Locator} {es : List Entry} {lics : List FullLicense} {r : Registry} (h : SearchEntries w f ls es lics)
    (ha : Adds (Registry.empty w.platform) es r) : (∀ x ∈ es, Audit.Complete w.platform x.2.1 x.2.2) ∧ ∀ lic ∈ lics, Fits w.platform (some lic.source) := by
  obtain ⟨h1, h2⟩ := search_looked w.platform h
  obtain ⟨_, a2, a3⟩ := adds_fits ha
  have hstep : r.step ≤ 2 := a2 2 (by show (-1 : Int) ≤ 2; decide) (fun x hx => (h1 x hx).1)
  have hl : ∀ y ∈ es, Looked y → Fits w.platform y.2.1 := by
    intro y hy hl
    rcases a3 y hy with h | ⟨s, hs, hlt⟩
    · exact h
    · exfalso
      rcases hl with hl | hl
      · rw [hl] at hs; cases hs
      · rw [hl] at hs; simp [progress] at hs; omega
  refine ⟨fun x hx => ⟨?_, ?_⟩, ?_⟩
  · obtain ⟨_, _, h3⟩ := h1 x hx
    rcases h3 with h | h | h | ⟨y, hy, e, hly⟩
    · exact const_fits _ (.inl h)
    · exact const_fits _ (.inr (.inl h))
    · exact const_fits _ (.inr (.inr h))
    · rw [← e]; exact hl y hy hly
  · obtain ⟨_, h3, _⟩ := h1 x hx
    intro i hi
    rw [hi] at h3
    rcases h3 with h | h | h
    · cases h
    · cases h; decide
    · cases h; decide
  · intro lic hlic
    obtain ⟨y, hy, e, hly⟩ := h2 lic hlic
    rw [← e]; exact hl y hy hly

theorem date_length {mk : Int → Int → Int → Int} {d : Bytes} {t : Int} (h : secondsFromEpoch mk d = .ok t) : d.length ≤ 10 := by
  by_cases h8 : d.length = 8
  · omega
  · by_cases h10 : d.length = 10
    · omega
    · rw [C33_date_wrong_length mk d h8 h10] at h; cases h

theorem takeWhile_le (s : Bytes) : (s.takeWhile (· ≠ 0)).length ≤ s.length := (List.takeWhile_prefix _).length_le

theorem judge_fits {cfg : Config} {w : World} {K : Nat} {ls : List FullLicense} {vs : List Bool} {es : List Entry} (h : JudgeEntries cfg w K ls vs es)
    (hf : ∀ l ∈ ls, Fits w.platform (some l.source)) : ∀ x ∈ es, Audit.Complete w.platform x.2.1 x.2.2 := by
  induction h with
  | nil => simp
  | @unsigned l ls vs es _ _ ih =>
    intro x hx
    rcases List.mem_cons.mp hx with rfl | hx
    · exact ⟨hf l (by simp), by simp⟩
    · exact ih (fun y hy => hf y (by simp [hy])) x hx
  | @signed l ls v vs es es' j _ _ hl _ ih =>
    intro x hx
    have hsrc := hf l (by simp)
    rcases List.mem_cons.mp hx with rfl | hx
    · exact ⟨hsrc, by simp⟩
    · rcases List.mem_append.mp hx with hx | hx
      · cases hl with
        | magic _ => simp only [List.mem_singleton] at hx; subst hx; exact ⟨hsrc, by simp⟩
        | @expired d t _ hd _ =>
          simp only [List.mem_singleton] at hx; subst hx
          refine ⟨hsrc, ?_⟩
          rintro i hi
          cases hi
          have := takeWhile_le (b!"Expired " ++ d)
          have := date_length hd
          have e : (b!"Expired " ++ d).length = 8 + d.length := by rw [List.length_append]; rfl
          omega
        | @early d t _ hd _ =>
          simp only [List.mem_singleton] at hx; subst hx
          refine ⟨hsrc, ?_⟩
          rintro i hi
          cases hi
          have := takeWhile_le (b!"Valid from " ++ d)
          have := date_length hd
          have e : (b!"Valid from " ++ d).length = 11 + d.length := by rw [List.length_append]; rfl
          omega
        | client _ _ => simp only [List.mem_singleton] at hx; subst hx; exact ⟨hsrc, by simp⟩
        | nothing _ => cases hx
      · exact ih (fun y hy => hf y (by simp [hy])) x hx

theorem adds_split {r r' : Registry} {es es' : List Entry} (h : Adds r (es ++ es') r') : ∃ r1, Adds r es r1 := by
  induction es generalizing r with
  | nil => exact ⟨r, .nil⟩
  | cons x es ih =>
    rw [List.cons_append] at h
    cases h with
    | cons h1 h2 =>
      obtain ⟨r1, h3⟩ := ih h2
      exact ⟨r1, .cons h1 h3⟩

theorem acquire_complete {cfg : Config} {w : World} {caller : Option Caller} {hint : Option LicenseLocation} {out : Option LicInfo} {res : AcquireResult}
    (h : acquire cfg w caller hint out = .ok res) :
    ∃ es : List Entry, SameButSeverity (es.map (Entry.event w.platform)) res.registry.logs ∧ ∀ x ∈ es, Audit.Complete w.platform x.2.1 x.2.2 := by
  obtain ⟨f, r, lics, es, hf, hr, hes, hc, _⟩ := acquire_cases h
  have hsearch : (∃ r0, Adds (Registry.empty w.platform) es r0) → (∀ x ∈ es, Audit.Complete w.platform x.2.1 x.2.2) ∧ ∀ l ∈ lics, Fits w.platform (some l.source) := by
    rintro ⟨r0, ha⟩
    rcases hes with ⟨_, rfl, rfl⟩ | hes
    · refine ⟨?_, by simp⟩
      intro x hx
      simp only [List.mem_singleton] at hx; subst hx
      exact ⟨by simp, by simp⟩
    · exact search_fits hes ha
  have hrefused : ∀ {es : List Entry}, Refused w.platform es res →
      SameButSeverity (es.map (Entry.event w.platform)) res.registry.logs ∧ ∃ r0, Adds (Registry.empty w.platform) es r0 := by
    intro es hh
    obtain ⟨⟨r0, b, h1, h2⟩, _⟩ := hh
    have hi : r0.Inv := (exact_addHistory (h1.history (.empty _))).2.1
    obtain ⟨r1, f, g1, g2, _⟩ := turnWarnings_spec hi
    rw [g1] at h2; simp only [Outcome.ok.injEq, Prod.mk.injEq] at h2
    rw [h2.1, h1.logs] at g2
    exact ⟨by simpa [Registry.empty] using g2, r0, h1⟩
  have hboth : ∀ {vs es'}, JudgeEntries cfg w res.ticks (lics.map (withMagic caller)) vs es' → (∃ r0, Adds (Registry.empty w.platform) (es ++ es') r0) →
      ∀ x ∈ es ++ es', Audit.Complete w.platform x.2.1 x.2.2 := by
    rintro vs es' hj ⟨r0, ha⟩ x hx
    obtain ⟨h1, h2⟩ := hsearch (adds_split ha)
    rcases List.mem_append.mp hx with hx | hx
    · exact h1 x hx
    · refine judge_fits hj ?_ x hx
      intro l hl
      obtain ⟨l0, hl0, rfl⟩ := List.mem_map.mp hl
      exact h2 l0 hl0
  rcases hc with ⟨_, _, href, _⟩ | ⟨_, vs, es', oks, errs, r1, hje, _, ⟨_, _, _, hadds, hreg, _⟩ | ⟨_, _, href, _⟩⟩
  · exact ⟨es, (hrefused href).1, (hsearch (hrefused href).2).1⟩
  · refine ⟨es ++ es', ?_, hboth hje ⟨r1, hadds⟩⟩
    rw [hreg]
    have := turnErrors_same r1
    rw [hadds.logs] at this
    simpa [Registry.empty] using this
  · exact ⟨es ++ es', (hrefused href).1, hboth hje (hrefused href).2⟩

end Audit

/-- **C80**: every event recorded by a call that returns has complete strings: there are a location and an explanation, and whatever was in the memory of the two arrays
    before, a caller who reads them as C strings gets these, in full, without leaving the array. -/
theorem C80_complete {cfg : Config} {w : World} {caller : Option Caller} {hint : Option LicenseLocation} {out : Option LicInfo} {res : AcquireResult}
    (h : acquire cfg w caller hint out = .ok res) :
    ∀ e ∈ res.registry.logs, ∃ ref info : Option Bytes, ∀ old1 old2 : Bytes, old1.length = pathRoom w.platform → old2.length = 256 →
      (Audit.reference w.platform old1 ref).length = pathRoom w.platform ∧ (param2 old2 info).length = 256
      ∧ cString (Audit.reference w.platform old1 ref) = some e.ref ∧ cString (param2 old2 info) = some e.info
      ∧ (∀ r, ref = some r → e.ref = r.takeWhile (· ≠ 0)) ∧ ∀ i, info = some i → e.info = i.takeWhile (· ≠ 0) := by
  obtain ⟨es, hs, hc⟩ := acquire_complete h
  intro e he
  obtain ⟨j, hj⟩ := List.mem_iff_getElem?.mp he
  obtain ⟨e0, he0, h1, h2, h3⟩ := (sameButSeverity_symm hs).get hj
  obtain ⟨⟨t, ref, info⟩, hx, rfl⟩ := List.mem_map.mp (List.mem_of_getElem? he0)
  refine ⟨ref, info, ?_⟩
  intro old1 old2 ho1 ho2
  obtain ⟨a1, a2, _, a4⟩ := C80_arrays w.platform t ref info old1 old2 ho1 ho2
  obtain ⟨b1, b2, b3, b4⟩ := a4 (hc _ hx)
  have c1 : (Entry.event w.platform (t, ref, info)).ref = (mkEvent w.platform t ref info).ref := rfl
  have c2 : (Entry.event w.platform (t, ref, info)).info = (mkEvent w.platform t ref info).info := rfl
  rw [c1] at h2
  rw [c2] at h3
  refine ⟨a1, a2, by rw [← h2]; exact b3.symm, by rw [← h3]; exact b4.symm, ?_, ?_⟩
  · rintro r rfl
    rw [b1, h2] at b3
    simpa using b3
  · rintro i rfl
    rw [b2, h3] at b4
    simpa using b4

/-- **C80**: the entries of the status array that are filled have complete strings, and there is room for the NUL. -/
theorem C80_status {cfg : Config} {w : World} {caller : Option Caller} {hint : Option LicenseLocation} {out : Option LicInfo} {res : AcquireResult}
    (h : acquire cfg w caller hint out = .ok res) {o : OutInfo} (ho : res.out = some o) {i : Nat} (hi : i < 5) (hl : i < res.registry.logs.length) :
    ∃ e ∈ res.registry.logs, o.status[i]? = some e ∧ e.ref.length < pathRoom w.platform ∧ 0 ∉ e.ref ∧ e.info.length < 255 ∧ 0 ∉ e.info := by
  obtain ⟨pre, g1, g2, _⟩ := (C14_status h).1 o ho
  have hm : i < (o.status.take (min 5 res.registry.logs.length)).length := by rw [List.length_take]; omega
  have he : (o.status.take (min 5 res.registry.logs.length))[i] ∈ res.registry.logs := by
    have : ∀ x ∈ o.status.take (min 5 res.registry.logs.length), x ∈ res.registry.logs := by
      intro x hx; rw [g2]; exact List.mem_append_right _ hx
    exact this _ (List.getElem_mem _)
  refine ⟨_, he, by simp, ?_⟩
  generalize (o.status.take (min 5 res.registry.logs.length))[i] = e at he
  obtain ⟨es, hs, hc⟩ := acquire_complete h
  obtain ⟨j, hj⟩ := List.mem_iff_getElem?.mp he
  obtain ⟨e0, he0, h1, h2, h3⟩ := (sameButSeverity_symm hs).get hj
  obtain ⟨⟨t, ref, info⟩, hx, rfl⟩ := List.mem_map.mp (List.mem_of_getElem? he0)
  obtain ⟨c1, c2⟩ := hc _ hx
  rw [← h2, ← h3]
  have k1 : (mkEvent w.platform t ref info).ref.length < pathRoom w.platform ∧ 0 ∉ (mkEvent w.platform t ref info).ref := by
    cases ref with
    | none =>
      rw [show (mkEvent w.platform t none info).ref = b!"UNDEF" from rfl]
      exact ⟨by cases w.platform <;> decide, by decide⟩
    | some r =>
      have := c1 r rfl
      have e : (mkEvent w.platform t (some r) info).ref = (r.takeWhile (· ≠ 0)).take w.platform.maxPath := rfl
      rw [e]
      exact ⟨by rw [List.length_take]; omega, take_no_nul (cstr_no_nul r) _⟩
  have k2 : (mkEvent w.platform t ref info).info.length < 255 ∧ 0 ∉ (mkEvent w.platform t ref info).info := by
    cases info with
    | none =>
      rw [show (mkEvent w.platform t ref none).info = [] from rfl]
      exact ⟨by decide, by decide⟩
    | some r =>
      have := c2 r rfl
      have e : (mkEvent w.platform t ref (some r)).info = (r.takeWhile (· ≠ 0)).take 255 := rfl
      rw [e]
      exact ⟨by rw [List.length_take]; omega, take_no_nul (cstr_no_nul r) _⟩
  exact ⟨k1.1, k1.2, k2.1, k2.2⟩

/-- A call that records events with both strings, and the strings of one of them. -/
example : (match acquire sampleConfig (sampleWorld 0) (some sampleCaller) none (some ⟨[], 0, false, false, none⟩) with
    | .ok r => r.registry.logs.map (fun e => (e.ref, e.info))
    | _ => []) ≠ [] ∧ cString (Audit.reference .linux (List.replicate (pathRoom .linux) 170) (some b!"/opt/app.lic")) = some b!"/opt/app.lic" := by
  constructor
  · decide +kernel
  · exact (cString_strncpy _ _ _ (by decide +kernel)).2.trans (by decide +kernel)

/-- An explanation of 255 characters or more would take all the bytes that are copied, and the last byte of the array is never written: only the events that are recorded
    make it complete, not the code that copies it. -/
example (old : Bytes) (i : Bytes) (h : old.length = 256) (hi : 255 ≤ (i.takeWhile (· ≠ 0)).length) (h0 : 0 ∉ old.drop 255) : cString (param2 old (some i)) = none := by
  rw [show param2 old (some i) = strncpy old i 255 from rfl, (cString_strncpy old i 255 (by omega)).2]
  rw [if_neg (by rw [List.length_take]; omega)]
  unfold cString
  rw [if_neg h0]
  rfl

end Licensecc
