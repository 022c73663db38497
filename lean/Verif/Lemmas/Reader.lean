import Verif.Lemmas.Log
import Verif.Lemmas.Version
import Verif.Spec.Acquire
import Verif.Props.Ini
import Verif.Props.StringUtils
import Verif.Props.HwIdentifier
/-!
# Lemmas about locating and reading licences
-/
namespace Licensecc
open Licensecc.Spec

theorem mstrnlen_some_ok {mem : Bytes} {n k : Nat} (h : mstrnlen (some mem) n = .ok k) : TextIn mem n (mem.take k) := by
  simp only [mstrnlen] at h
  induction mem generalizing n k with
  | nil => simp [mstrnlenLoop] at h
  | cons b mem ih =>
    simp only [mstrnlenLoop] at h
    split at h
    · simp at h; subst h
      rename_i hb; subst hb
      exact ⟨by simp, .inl ⟨mem, by simp, by simp⟩⟩
    · rename_i hb
      cases n with
      | zero => simp at h; subst h; exact ⟨by simp, .inr ⟨b, mem, by simp, by simp⟩⟩
      | succ m =>
        simp only at h
        split at h
        · rename_i j hj
          simp at h; subst h
          obtain ⟨h0, h1⟩ := ih hj
          have hb' : ¬ (0 = b) := fun h => hb h.symm
          refine ⟨by simp [h0, hb'], ?_⟩
          rcases h1 with ⟨rest, e, hl⟩ | ⟨c, rest, e, hl⟩
          · exact .inl ⟨rest, by rw [List.take_succ_cons, List.cons_append, ← e], by simpa using hl⟩
          · exact .inr ⟨c, rest, by rw [List.take_succ_cons, List.cons_append, ← e], by simpa using hl⟩
        · simp at h
        · simp at h

theorem mstrnlenLoop_text {d mem : Bytes} {n : Nat} (h : TextIn mem n d) : mstrnlenLoop mem n = .ok d.length := by
  obtain ⟨h0, h⟩ := h
  induction d generalizing mem n with
  | nil =>
    rcases h with ⟨rest, rfl, _⟩ | ⟨c, rest, rfl, hl⟩
    · simp [mstrnlenLoop]
    · simp at hl; subst hl
      simp only [List.nil_append, mstrnlenLoop]
      split <;> rfl
  | cons b d ih =>
    simp only [List.mem_cons, not_or] at h0
    have hb : ¬ b = 0 := fun h => h0.1 h.symm
    rcases h with ⟨rest, rfl, hl⟩ | ⟨c, rest, rfl, hl⟩
    · cases n with
      | zero => simp at hl
      | succ n =>
        have := ih (mem := d ++ 0 :: rest) (n := n) h0.2 (.inl ⟨rest, rfl, by simpa using hl⟩)
        simp only [List.cons_append, mstrnlenLoop, hb, if_false, this, List.length_cons]
    · cases n with
      | zero => simp at hl
      | succ n =>
        have := ih (mem := d ++ c :: rest) (n := n) h0.2 (.inr ⟨c, rest, rfl, by simpa using hl⟩)
        simp only [List.cons_append, mstrnlenLoop, hb, if_false, this, List.length_cons]

/-- `string(p, mstrnlen_s(p, n))` is the text held by the array. -/
theorem boundedString_iff {mem d : Bytes} {n : Nat} : boundedString mem n = .ok d ↔ TextIn mem n d := by
  unfold boundedString
  constructor
  · intro h
    split at h
    · rename_i k hk; simp at h; subst h; exact mstrnlen_some_ok hk
    · simp at h
    · simp at h
  · intro h
    rw [show mstrnlen (some mem) n = .ok d.length from mstrnlenLoop_text h]
    have : mem.take d.length = d := by
      rcases h.2 with ⟨rest, rfl, _⟩ | ⟨c, rest, rfl, _⟩ <;> simp
    simp [this]

theorem textIn_unique {mem d d' : Bytes} {n : Nat} (h : TextIn mem n d) (h' : TextIn mem n d') : d = d' := by
  rw [← boundedString_iff] at h h'
  rw [h] at h'; simpa using h'

theorem boundedString_no_throw (mem : Bytes) (n : Nat) (e : Exn) : boundedString mem n ≠ .throw e := by
  unfold boundedString
  have : ∀ (mem : Bytes) n, mstrnlenLoop mem n ≠ .throw e := by
    intro mem
    induction mem with
    | nil => intro n; simp [mstrnlenLoop]
    | cons b mem ih =>
      intro n
      simp only [mstrnlenLoop]
      split
      · simp
      · cases n with
        | zero => simp
        | succ n =>
          simp only
          split
          · simp
          · rename_i e' he; intro h; simp at h; subst h; exact ih n he
          · simp
  split
  · simp
  · rename_i e' he; intro h; simp at h; subst h; exact this _ _ he
  · simp

theorem mem_takeWhile {p : UInt8 → Bool} {s : Bytes} {c : UInt8} (h : c ∈ s.takeWhile p) : p c = true := by
  induction s with
  | nil => simp at h
  | cons a s ih =>
    rw [List.takeWhile_cons] at h
    split at h
    · rename_i ha
      rcases List.mem_cons.mp h with rfl | h
      · exact ha
      · exact ih h
    · simp at h

theorem stringOfVector_iff {v d : Bytes} : stringOfVector v = .ok d ↔ 0 ∉ d ∧ ∃ rest, v = d ++ 0 :: rest := by
  unfold stringOfVector
  constructor
  · intro h
    split at h
    · rename_i h0
      simp only [Outcome.ok.injEq] at h; subst h
      refine ⟨?_, ?_⟩
      · intro hm
        have := mem_takeWhile hm
        simp at this
      · induction v with
        | nil => simp at h0
        | cons c v ih =>
          rw [List.takeWhile_cons]
          by_cases hc : c = 0
          · subst hc; exact ⟨v, by simp⟩
          · have : 0 ∈ v := by
              rcases List.mem_cons.mp h0 with h | h
              · exact absurd h.symm hc
              · exact h
            obtain ⟨rest, hr⟩ := ih this
            refine ⟨rest, ?_⟩
            simp only [ne_eq, hc, not_false_eq_true, decide_true, if_true, List.cons_append]
            exact congrArg _ hr
    · simp at h
  · rintro ⟨h0, rest, rfl⟩
    rw [if_pos (by simp)]
    exact congrArg _ (Ini.cut_append_nul h0)

/-! ## Locators -/

theorem filterExistingFiles_mem {w : World} {extra : Bytes} {ps : List Bytes} : ∀ {r r' : Registry} {fs : List Bytes},
    filterExistingFiles w extra r ps = .ok (r', fs) → fs = ps.filter w.probe := by
  induction ps with
  | nil => intro r r' fs h; simp [filterExistingFiles] at h; simp [h]
  | cons p ps ih =>
    intro r r' fs h
    rw [filterExistingFiles] at h
    obtain ⟨r1, _, h⟩ := Outcome.bind_eq_ok.mp h
    split at h
    · rename_i hp
      obtain ⟨r2, _, h⟩ := Outcome.bind_eq_ok.mp h
      obtain ⟨⟨r3, fs'⟩, h3, h⟩ := Outcome.bind_eq_ok.mp h
      simp only [Outcome.pure_eq, Outcome.ok.injEq, Prod.mk.injEq] at h
      rw [← h.2, ih h3, List.filter_cons, if_pos hp]
    · rename_i hp
      obtain ⟨r2, _, h⟩ := Outcome.bind_eq_ok.mp h
      rw [ih h, List.filter_cons, if_neg hp]

theorem splitString_nil (c : UInt8) : splitString [] c = [] := rfl

theorem getFileContents_iff {w : World} {p c : Bytes} :
    getFileContents w p maxLicenseData = .ok c ↔ ∃ x, w.read p = some x ∧ c = x.take 4096 := by
  unfold getFileContents
  cases h : w.read p <;> simp [eq_comm]

/-- Application folder. -/
theorem offers_applicationFolder {w : World} {r r' : Registry} {locs : List Bytes} {b : Bool}
    (h : licenseLocations w .applicationFolder r = .ok (r', locs, b)) (src text : Bytes) :
    (src ∈ locs ∧ retrieveContent w .applicationFolder b src = .ok text) ↔
      ∃ m c, w.moduleName = some m ∧ src = removeExtension m ++ licenseExt ∧ w.probe src = true ∧ w.read src = some c
        ∧ text = c.take 4096 := by
  rw [licenseLocations] at h
  simp only [retrieveContent, getFileContents_iff]
  split at h
  · rename_i hm
    simp only [logged_ok, Outcome.ok.injEq, Prod.mk.injEq] at h
    simp [← h.2.2.1, hm]
  · rename_i m hm
    simp only at h
    split at h
    · rename_i hp
      obtain ⟨r1, _, h⟩ := Outcome.bind_eq_ok.mp h
      simp only [Outcome.pure_eq, Outcome.ok.injEq, Prod.mk.injEq] at h
      rw [← h.2.1, List.mem_singleton]
      constructor
      · rintro ⟨rfl, x, hx, ht⟩; exact ⟨m, x, hm, rfl, hp, hx, ht⟩
      · rintro ⟨m', c, hm', rfl, _, hc, ht⟩
        rw [hm] at hm'; simp at hm'; subst hm'
        exact ⟨rfl, c, hc, ht⟩
    · rename_i hp
      obtain ⟨r1, _, h⟩ := Outcome.bind_eq_ok.mp h
      simp only [Outcome.pure_eq, Outcome.ok.injEq, Prod.mk.injEq] at h
      rw [← h.2.1]
      simp only [List.not_mem_nil, false_and, false_iff]
      rintro ⟨m', c, hm', rfl, hp', _⟩
      rw [hm] at hm'; simp at hm'; subst hm'
      exact hp hp'

/-- LICENSE_LOCATION. -/
theorem offers_envLocation {w : World} {r r' : Registry} {locs : List Bytes} {b : Bool}
    (h : licenseLocations w .environmentVarLocation r = .ok (r', locs, b)) (src text : Bytes) :
    (src ∈ locs ∧ retrieveContent w .environmentVarLocation b src = .ok text) ↔
      ∃ v c, w.getenv locationVar = some v ∧ src ∈ splitString v 59 ∧ w.probe src = true ∧ w.read src = some c
        ∧ text = c.take 4096 := by
  rw [licenseLocations] at h
  simp only [retrieveContent, getFileContents_iff]
  split at h
  · rename_i c0 v0 hv
    obtain ⟨⟨r1, fs⟩, h1, h⟩ := Outcome.bind_eq_ok.mp h
    simp only [Outcome.pure_eq, Outcome.ok.injEq, Prod.mk.injEq] at h
    rw [← h.2.1, filterExistingFiles_mem h1, List.mem_filter]
    constructor
    · rintro ⟨⟨h2, h3⟩, x, hx, ht⟩; exact ⟨_, x, hv, h2, h3, hx, ht⟩
    · rintro ⟨v, c, hv', h2, h3, hc, ht⟩
      rw [hv] at hv'; simp at hv'; subst hv'
      exact ⟨⟨h2, h3⟩, c, hc, ht⟩
  · rename_i hv
    obtain ⟨r1, _, h⟩ := Outcome.bind_eq_ok.mp h
    simp only [Outcome.pure_eq, Outcome.ok.injEq, Prod.mk.injEq] at h
    rw [← h.2.1]
    simp only [List.not_mem_nil, false_and, false_iff]
    rintro ⟨v, c, hv', h2, _⟩
    cases v with
    | nil => simp [splitString_nil] at h2
    | cons a v => exact hv a v hv'

/-- LICENSE_DATA. -/
theorem offers_envData {w : World} {r r' : Registry} {locs : List Bytes} {b : Bool}
    (h : licenseLocations w .environmentVarData r = .ok (r', locs, b)) (src text : Bytes) :
    (src ∈ locs ∧ retrieveContent w .environmentVarData b src = .ok text) ↔
      ∃ dat v, w.getenv dataVar = some dat ∧ dat ≠ [] ∧ src = locationVar ∧ w.getenv locationVar = some v ∧
        ((identifyFormat dat = .ini ∧ text = v) ∨
          (identifyFormat dat = .base64 ∧ 0 ∉ text ∧ ∃ rest, unbase64 v = .ok (text ++ 0 :: rest))) := by
  rw [licenseLocations] at h
  simp only [retrieveContent]
  split at h
  · rename_i c0 v0 hv
    obtain ⟨r1, _, h⟩ := Outcome.bind_eq_ok.mp h
    split at h
    · rename_i hf
      obtain ⟨r2, _, h⟩ := Outcome.bind_eq_ok.mp h
      simp only [Outcome.pure_eq, Outcome.ok.injEq, Prod.mk.injEq] at h
      rw [← h.2.1]
      simp only [List.not_mem_nil, false_and, false_iff]
      rintro ⟨dat, v, hd, _, _, _, hh⟩
      rw [hv] at hd; simp at hd; subst hd
      rw [hf] at hh; simp at hh
    · rename_i hf
      simp only [Outcome.pure_eq, Outcome.ok.injEq, Prod.mk.injEq] at h
      rw [← h.2.1, ← h.2.2, List.mem_singleton]
      simp only [if_true]
      constructor
      · rintro ⟨rfl, ht⟩
        split at ht
        · simp at ht
        · rename_i v hv2
          obtain ⟨u, hu, ht⟩ := Outcome.bind_eq_ok.mp ht
          obtain ⟨h0, rest, rfl⟩ := stringOfVector_iff.mp ht
          exact ⟨_, v, hv, by simp, rfl, hv2, .inr ⟨hf, h0, rest, hu⟩⟩
      · rintro ⟨dat, v, hd, _, rfl, hv2, hh⟩
        rw [hv] at hd; simp at hd; subst hd
        rw [hf] at hh
        rcases hh with ⟨hh, _⟩ | ⟨_, h0, rest, hu⟩
        · simp at hh
        · refine ⟨rfl, ?_⟩
          rw [hv2]
          simp only [hu, Outcome.ok_bind]
          exact stringOfVector_iff.mpr ⟨h0, rest, rfl⟩
    · rename_i hf
      simp only [Outcome.pure_eq, Outcome.ok.injEq, Prod.mk.injEq] at h
      rw [← h.2.1, ← h.2.2, List.mem_singleton]
      simp only [Bool.false_eq_true, if_false]
      constructor
      · rintro ⟨rfl, ht⟩
        split at ht
        · simp at ht
        · rename_i v hv2
          simp only [Outcome.ok.injEq] at ht
          exact ⟨_, v, hv, by simp, rfl, hv2, .inl ⟨hf, ht.symm⟩⟩
      · rintro ⟨dat, v, hd, _, rfl, hv2, hh⟩
        rw [hv] at hd; simp at hd; subst hd
        rw [hf] at hh
        rcases hh with ⟨_, hh⟩ | ⟨hh, _⟩
        · subst hh; exact ⟨rfl, by rw [hv2]⟩
        · simp at hh
  · rename_i hv
    obtain ⟨r1, _, h⟩ := Outcome.bind_eq_ok.mp h
    simp only [Outcome.pure_eq, Outcome.ok.injEq, Prod.mk.injEq] at h
    rw [← h.2.1]
    simp only [List.not_mem_nil, false_and, false_iff]
    rintro ⟨dat, v, hd, hne, _⟩
    cases dat with
    | nil => exact hne rfl
    | cons a dat => exact hv a dat hd

theorem textIn_nil {c : UInt8} {mem : Bytes} : TextIn (c :: mem) 4096 [] ↔ c = 0 := by
  constructor
  · rintro ⟨_, ⟨rest, h, _⟩ | ⟨c', rest, h, hl⟩⟩
    · simp at h; exact h.1
    · simp at hl
  · rintro rfl; exact ⟨by simp, .inl ⟨mem, rfl, by simp⟩⟩

/-- Caller's location. -/
theorem offers_external {w : World} {loc : LicenseLocation} {r r' : Registry} {locs : List Bytes} {b : Bool}
    (h : licenseLocations w (.externalDefinition loc) r = .ok (r', locs, b)) (src text : Bytes) :
    (src ∈ locs ∧ retrieveContent w (.externalDefinition loc) b src = .ok text) ↔
      ∃ d, TextIn loc.data 4096 d ∧
        ((loc.kind = 0 ∧ src ∈ splitString d 59 ∧ w.probe src = true ∧ src ≠ externalName
            ∧ ∃ c, w.read src = some c ∧ text = c.take 4096)
        ∨ (loc.kind = 0 ∧ src = externalName ∧ src ∈ splitString d 59 ∧ w.probe src = true ∧ text = d)
        ∨ (loc.kind = 1 ∧ d ≠ [] ∧ src = externalName ∧ text = d)
        ∨ (loc.kind = 2 ∧ d ≠ [] ∧ src = externalName ∧ 0 ∉ text ∧ ∃ rest, unbase64 d = .ok (text ++ 0 :: rest))) := by
  rw [licenseLocations] at h
  simp only [retrieveContent]
  split at h
  · simp at h
  · rename_i c0 mem hd
    split at h
    · rename_i hc
      subst hc
      simp only [Outcome.ok.injEq, Prod.mk.injEq] at h
      rw [← h.2.1]
      simp only [List.not_mem_nil, false_and, false_iff]
      rintro ⟨d, ht, hh⟩
      rw [hd] at ht
      have : d = [] := textIn_unique ht (textIn_nil.mpr rfl)
      subst this
      simp [splitString_nil] at hh
    · rename_i hc
      obtain ⟨r1, _, h⟩ := Outcome.bind_eq_ok.mp h
      have hne : ∀ d, TextIn loc.data 4096 d → d ≠ [] := by
        rintro d ht rfl; rw [hd, textIn_nil] at ht; exact hc ht
      by_cases hk0 : loc.kind = 0
      · rw [if_pos hk0] at h
        obtain ⟨d, h1, h⟩ := Outcome.bind_eq_ok.mp h
        obtain ⟨⟨r2, fs⟩, h2, h⟩ := Outcome.bind_eq_ok.mp h
        simp only [Outcome.pure_eq, Outcome.ok.injEq, Prod.mk.injEq] at h
        rw [← h.2.1, filterExistingFiles_mem h2, List.mem_filter]
        have ht : TextIn loc.data 4096 d := boundedString_iff.mp h1
        have hk1 : ¬ loc.kind = 1 := by omega
        have hk2 : ¬ loc.kind = 2 := by omega
        have hd' : ∀ {d'}, TextIn loc.data 4096 d' → d' = d := fun h => textIn_unique h ht
        have e : (if src = externalName then do
              let d ← boundedString loc.data maxLicenseData
              if loc.kind = 2 then do stringOfVector (← unbase64 d) else return d
            else getFileContents w src maxLicenseData)
            = if src = externalName then .ok d else getFileContents w src maxLicenseData := by
          rw [h1]; simp [hk2]
        rw [e]
        constructor
        · rintro ⟨⟨hm, hp⟩, hr⟩
          refine ⟨d, ht, ?_⟩
          split at hr
          · rename_i hs
            simp only [Outcome.ok.injEq] at hr
            exact .inr (.inl ⟨hk0, hs, hm, hp, hr.symm⟩)
          · rename_i hs
            exact .inl ⟨hk0, hm, hp, hs, getFileContents_iff.mp hr⟩
        · rintro ⟨d', ht', hh⟩
          have := hd' ht'; subst this
          rcases hh with ⟨_, hm, hp, hs, hr⟩ | ⟨_, hs, hm, hp, hr⟩ | ⟨hk, _⟩ | ⟨hk, _⟩
          · refine ⟨⟨hm, hp⟩, ?_⟩
            rw [if_neg hs]; exact getFileContents_iff.mpr hr
          · refine ⟨⟨hm, hp⟩, ?_⟩
            rw [if_pos hs, hr]
          · omega
          · omega
      · rw [if_neg hk0] at h
        split at h
        · rename_i hk
          simp only [Outcome.pure_eq, Outcome.ok.injEq, Prod.mk.injEq] at h
          rw [← h.2.1, List.mem_singleton]
          simp only [hk0, false_and, false_or]
          constructor
          · rintro ⟨rfl, hr⟩
            rw [if_pos rfl] at hr
            obtain ⟨d, h1, hr⟩ := Outcome.bind_eq_ok.mp hr
            have ht : TextIn loc.data 4096 d := boundedString_iff.mp h1
            refine ⟨d, ht, ?_⟩
            split at hr
            · rename_i h2
              obtain ⟨u, hu, hr⟩ := Outcome.bind_eq_ok.mp hr
              obtain ⟨h0, rest, rfl⟩ := stringOfVector_iff.mp hr
              exact .inr ⟨h2, hne d ht, rfl, h0, rest, hu⟩
            · rename_i h2
              simp only [Outcome.pure_eq, Outcome.ok.injEq] at hr
              exact .inl ⟨by omega, hne d ht, rfl, hr.symm⟩
          · rintro ⟨d, ht, hh⟩
            have h1 := boundedString_iff.mpr ht
            rcases hh with ⟨hk1, _, rfl, rfl⟩ | ⟨hk2, _, rfl, h0, rest, hu⟩
            · refine ⟨rfl, ?_⟩
              have hk2 : ¬ loc.kind = 2 := by omega
              simp [h1, hk2]
            · refine ⟨rfl, ?_⟩
              simp only [if_true, h1, hk2, Outcome.ok_bind, hu]
              exact stringOfVector_iff.mpr ⟨h0, rest, rfl⟩
        · simp at h

/-! ## Reading one text -/

/-- The licence `l` is what is read from `text` for the feature. -/
structure IsLicence (feature src text : Bytes) (l : FullLicense) : Prop where
  source : l.source = src
  project : l.project = feature
  magic : l.magic = 0
  signature : lastValue kSig (entriesFor feature text) = some l.signature
  version : Ini.toLong (lastValue kVersion (entriesFor feature text)) (-1) = 200
  sorted : SMap.Sorted l.limits
  limits : ∀ k v, SMap.find? k l.limits = some v ↔ IsLimit (entriesFor feature text) k v

theorem IsLicence.unique {feature src text : Bytes} {l l' : FullLicense} (h : IsLicence feature src text l)
    (h' : IsLicence feature src text l') : l = l' := by
  have hm : l.limits = l'.limits := by
    apply SMap.ext h.sorted h'.sorted
    intro k
    cases h1 : SMap.find? k l.limits with
    | some v => rw [h.limits, ← h'.limits] at h1; exact h1.symm
    | none =>
      cases h2 : SMap.find? k l'.limits with
      | none => rfl
      | some v => rw [h'.limits, ← h.limits, h1] at h2; simp at h2
  have hs : l.signature = l'.signature := by
    have := h.signature; rw [h'.signature] at this; simpa using this.symm
  cases l; cases l'
  have := h.source; have := h'.source; have := h.project; have := h'.project; have := h.magic; have := h'.magic
  simp_all

theorem fillLimits_spec (d : Ini.Data) (p : Bytes) (ks : List Bytes) : ∀ (m : SMap Bytes), SMap.Sorted m →
    (∀ k ∈ ks, ∃ v, Ini.getValue d p k = some v) →
    ∃ m', fillLimits d p ks m = .ok m' ∧ SMap.Sorted m'
      ∧ ∀ k, SMap.find? k m' = if k ∈ ks then Ini.getValue d p k else SMap.find? k m := by
  induction ks with
  | nil => intro m hm _; exact ⟨m, rfl, hm, by simp⟩
  | cons k ks ih =>
    intro m hm hk
    obtain ⟨v, hv⟩ := hk k (by simp)
    obtain ⟨m', h1, h2, h3⟩ := ih (SMap.insert k v m) (SMap.sorted_insert hm) (fun x hx => hk x (by simp [hx]))
    refine ⟨m', by rw [fillLimits, hv]; exact h1, h2, ?_⟩
    intro x
    rw [h3, SMap.find_insert]
    by_cases hx : x ∈ ks
    · simp [hx]
    · by_cases hxk : x = k
      · subst hxk; simp [hx, hv]
      · simp [hx, hxk]

theorem getValue_of_key {s p k : Bytes} (h : k ∈ Ini.getAllKeys (Ini.load s) p) :
    ∃ v, Ini.getValue (Ini.load s) p k = some v := by
  rw [Ini.C18_first_spelling] at h
  rw [Ini.C18_last_value]
  unfold firstSpelling at h
  unfold lastValue
  cases hf : (entriesOf p (Ini.items s)).filter (fun q => @decide (SameCI q.1 k) (Classical.propDecidable _)) with
  | nil => rw [hf] at h; simp at h
  | cons e es =>
    rw [List.getLast?_eq_some_getLast (by simp)]
    exact ⟨_, rfl⟩

theorem readOne_spec {feature src text : Bytes} {r r' : Registry} {o : Option FullLicense}
    (h : readOne feature r src text = .ok (r', o)) (l : FullLicense) :
    o = some l ↔ IsLicence feature src text l := by
  have key : ∀ l', IsLicence feature src text l' → 0 < Ini.getSectionSize (Ini.load text) (toUpperCopy feature) := by
    intro l' hl
    rw [Ini.C18_section_size]
    intro hnil
    have := hl.signature
    rw [entriesFor, hnil] at this
    simp [lastValue] at this
  have hnone : o = none → (¬ ∃ l', IsLicence feature src text l') → (o = some l ↔ IsLicence feature src text l) := by
    rintro rfl hn; simp; exact fun h => hn ⟨l, h⟩
  simp only [readOne] at h
  split at h
  · rename_i hs
    obtain ⟨r1, _, h⟩ := Outcome.bind_eq_ok.mp h
    simp only [Outcome.pure_eq, Outcome.ok.injEq, Prod.mk.injEq] at h
    refine hnone h.2.symm ?_
    rintro ⟨l', hl⟩
    have := key l' hl
    omega
  · obtain ⟨r1, _, h⟩ := Outcome.bind_eq_ok.mp h
    rw [Ini.C18_last_value, Ini.C18_last_value] at h
    split at h
    · rename_i s hs
      split at h
      · rename_i hv
        obtain ⟨m', h1, h2, h3⟩ := fillLimits_spec (Ini.load text) (toUpperCopy feature)
          (Ini.getAllKeys (Ini.load text) (toUpperCopy feature)) [] SMap.sorted_nil (fun k hk => getValue_of_key hk)
        rw [h1] at h
        simp only [Outcome.ok_bind, Outcome.pure_eq, Outcome.ok.injEq, Prod.mk.injEq] at h
        rw [← h.2]
        have hl : IsLicence feature src text ⟨src, feature, s, 0, m'⟩ := by
          refine ⟨rfl, rfl, rfl, hs, hv, h2, ?_⟩
          intro k v
          simp only
          rw [h3]
          unfold IsLimit entriesFor
          rw [← Ini.C18_first_spelling, ← Ini.C18_last_value]
          by_cases hk : k ∈ Ini.getAllKeys (Ini.load text) (toUpperCopy feature)
          · simp [hk]
          · simp [hk, SMap.find?]
        constructor
        · intro he; simp at he; subst he; exact hl
        · intro h'; rw [hl.unique h']
      · rename_i hv
        obtain ⟨r2, _, h⟩ := Outcome.bind_eq_ok.mp h
        simp only [Outcome.pure_eq, Outcome.ok.injEq, Prod.mk.injEq] at h
        refine hnone h.2.symm ?_
        rintro ⟨l', hl⟩
        exact hv hl.version
    · rename_i hs
      obtain ⟨r2, _, h⟩ := Outcome.bind_eq_ok.mp h
      simp only [Outcome.pure_eq, Outcome.ok.injEq, Prod.mk.injEq] at h
      refine hnone h.2.symm ?_
      rintro ⟨l', hl⟩
      have := hl.signature
      unfold entriesFor at this
      rw [hs] at this; simp at this

theorem readLocations_spec {w : World} {feature : Bytes} {l : Locator} {b : Bool} {locs : List Bytes} :
    ∀ {r r' : Registry} {lics : List FullLicense}, readLocations w feature l b r locs = .ok (r', lics) →
    (∀ src ∈ locs, ∃ text, retrieveContent w l b src = .ok text) ∧
    ∀ lic, lic ∈ lics ↔ ∃ src text, src ∈ locs ∧ retrieveContent w l b src = .ok text ∧ IsLicence feature src text lic := by
  induction locs with
  | nil => intro r r' lics h; simp [readLocations] at h; simp [h]
  | cons s locs ih =>
    intro r r' lics h
    rw [readLocations] at h
    obtain ⟨c, hc, h⟩ := Outcome.bind_eq_ok.mp h
    obtain ⟨⟨r1, o⟩, ho, h⟩ := Outcome.bind_eq_ok.mp h
    obtain ⟨⟨r2, lics'⟩, hl, h⟩ := Outcome.bind_eq_ok.mp h
    simp only [Outcome.pure_eq, Outcome.ok.injEq, Prod.mk.injEq] at h
    obtain ⟨ih1, ih2⟩ := ih hl
    have ho' := readOne_spec ho
    refine ⟨?_, ?_⟩
    · intro src hs
      rcases List.mem_cons.mp hs with rfl | hs
      · exact ⟨c, hc⟩
      · exact ih1 src hs
    · intro lic
      rw [← h.2, List.mem_append, ih2, Option.mem_toList, ho']
      constructor
      · rintro (hh | ⟨src, text, h1, h2, h3⟩)
        · exact ⟨s, c, by simp, hc, hh⟩
        · exact ⟨src, text, by simp [h1], h2, h3⟩
      · rintro ⟨src, text, h1, h2, h3⟩
        rcases List.mem_cons.mp h1 with rfl | h1
        · rw [hc] at h2; simp at h2; subst h2; exact .inl h3
        · exact .inr ⟨src, text, h1, h2, h3⟩

theorem readLocators_spec {w : World} {feature : Bytes} {ls : List Locator} :
    ∀ {r r' : Registry} {lics : List FullLicense}, readLocators w feature r ls = .ok (r', lics) →
    (∀ l ∈ ls, ∃ r1 r2 locs b, licenseLocations w l r1 = .ok (r2, locs, b)) ∧
    ∀ lic, lic ∈ lics ↔ ∃ l ∈ ls, ∃ r1 r2 locs b src text, licenseLocations w l r1 = .ok (r2, locs, b) ∧ src ∈ locs
      ∧ retrieveContent w l b src = .ok text ∧ IsLicence feature src text lic := by
  induction ls with
  | nil => intro r r' lics h; simp [readLocators] at h; simp [h]
  | cons l ls ih =>
    intro r r' lics h
    rw [readLocators] at h
    obtain ⟨⟨r1, locs, b⟩, hloc, h⟩ := Outcome.bind_eq_ok.mp h
    obtain ⟨⟨r2, lics1⟩, hr, h⟩ := Outcome.bind_eq_ok.mp h
    obtain ⟨⟨r3, lics2⟩, hl, h⟩ := Outcome.bind_eq_ok.mp h
    simp only [Outcome.pure_eq, Outcome.ok.injEq, Prod.mk.injEq] at h
    obtain ⟨ih1, ih2⟩ := ih hl
    obtain ⟨hr1, hr2⟩ := readLocations_spec hr
    refine ⟨?_, ?_⟩
    · intro l' hl'
      rcases List.mem_cons.mp hl' with rfl | hl'
      · exact ⟨_, _, _, _, hloc⟩
      · exact ih1 l' hl'
    · intro lic
      rw [← h.2, List.mem_append, ih2, hr2]
      constructor
      · rintro (⟨src, text, h1, h2, h3⟩ | ⟨l', hl', hh⟩)
        · exact ⟨l, by simp, r, r1, locs, b, src, text, hloc, h1, h2, h3⟩
        · exact ⟨l', by simp [hl'], hh⟩
      · rintro ⟨l', hl', ra, rb, locs', b', src, text, h0, h1, h2, h3⟩
        rcases List.mem_cons.mp hl' with rfl | hl'
        · left
          have e : src ∈ locs ∧ retrieveContent w l' b src = .ok text := by
            cases l' with
            | applicationFolder =>
              exact (offers_applicationFolder hloc src text).mpr ((offers_applicationFolder h0 src text).mp ⟨h1, h2⟩)
            | environmentVarLocation =>
              exact (offers_envLocation hloc src text).mpr ((offers_envLocation h0 src text).mp ⟨h1, h2⟩)
            | environmentVarData =>
              exact (offers_envData hloc src text).mpr ((offers_envData h0 src text).mp ⟨h1, h2⟩)
            | externalDefinition loc =>
              exact (offers_external hloc src text).mpr ((offers_external h0 src text).mp ⟨h1, h2⟩)
          exact ⟨src, text, e.1, e.2, h3⟩
        · exact .inr ⟨l', hl', ra, rb, locs', b', src, text, h0, h1, h2, h3⟩

theorem mem_activeStrategies {cfg : Config} {hint : Option LicenseLocation} {l : Locator} :
    l ∈ activeStrategies cfg hint ↔ (cfg.nearModule = true ∧ l = .applicationFolder)
      ∨ (cfg.withEnvVar = true ∧ (l = .environmentVarLocation ∨ l = .environmentVarData))
      ∨ (∃ loc, hint = some loc ∧ l = .externalDefinition loc) := by
  unfold activeStrategies
  rw [List.mem_append, List.mem_append]
  cases cfg.nearModule <;> cases cfg.withEnvVar <;> cases hint <;> simp [or_assoc]

/-- What the active locators deliver is what is offered. -/
theorem located_iff {cfg : Config} {w : World} {hint : Option LicenseLocation}
    (hok : ∀ l ∈ activeStrategies cfg hint, ∃ r1 r2 locs b, licenseLocations w l r1 = .ok (r2, locs, b)) (src text : Bytes) :
    (∃ l ∈ activeStrategies cfg hint, ∃ r1 r2 locs b, licenseLocations w l r1 = .ok (r2, locs, b) ∧ src ∈ locs
      ∧ retrieveContent w l b src = .ok text) ↔ Offers cfg w hint src text := by
  constructor
  · rintro ⟨l, hl, r1, r2, locs, b, h0, h1, h2⟩
    rw [mem_activeStrategies] at hl
    rcases hl with ⟨hn, rfl⟩ | ⟨he, rfl | rfl⟩ | ⟨loc, hh, rfl⟩
    · obtain ⟨m, c, h3, rfl, h5, h6, rfl⟩ := (offers_applicationFolder h0 src text).mp ⟨h1, h2⟩
      exact .nearModule hn h3 h5 h6
    · obtain ⟨v, c, h3, h4, h5, h6, rfl⟩ := (offers_envLocation h0 src text).mp ⟨h1, h2⟩
      exact .envLocation he h3 h4 h5 h6
    · obtain ⟨dat, v, h3, h4, rfl, h5, h6⟩ := (offers_envData h0 src text).mp ⟨h1, h2⟩
      rcases h6 with ⟨h6, rfl⟩ | ⟨h6, h7, rest, h8⟩
      · exact .envData he h3 h4 h6 h5
      · exact .envDataEncoded he h3 h4 h6 h5 h8 h7
    · obtain ⟨d, ht, h⟩ := (offers_external h0 src text).mp ⟨h1, h2⟩
      rcases h with ⟨h3, h4, h5, h6, c, h7, rfl⟩ | ⟨h3, rfl, h5, h6, rfl⟩ | ⟨h3, h4, rfl, rfl⟩ | ⟨h3, h4, rfl, h5, rest, h6⟩
      · exact .hintPath hh h3 ht h4 h5 h6 h7
      · exact .hintPathOddName hh h3 ht h5 h6
      · exact .hintPlain hh h3 ht h4
      · exact .hintEncoded hh h3 ht h4 h6 h5
  · intro h
    have fin : ∀ l, l ∈ activeStrategies cfg hint →
        (∀ r1 r2 locs b, licenseLocations w l r1 = .ok (r2, locs, b) → src ∈ locs ∧ retrieveContent w l b src = .ok text) →
        ∃ l ∈ activeStrategies cfg hint, ∃ r1 r2 locs b, licenseLocations w l r1 = .ok (r2, locs, b) ∧ src ∈ locs
          ∧ retrieveContent w l b src = .ok text := by
      intro l hl hh
      obtain ⟨r1, r2, locs, b, h0⟩ := hok l hl
      exact ⟨l, hl, r1, r2, locs, b, h0, hh _ _ _ _ h0⟩
    cases h with
    | nearModule h1 h2 h3 h4 =>
      refine fin _ (mem_activeStrategies.mpr (.inl ⟨h1, rfl⟩)) (fun r1 r2 locs b h0 => ?_)
      exact (offers_applicationFolder h0 _ _).mpr ⟨_, _, h2, rfl, h3, h4, rfl⟩
    | envLocation h1 h2 h3 h4 h5 =>
      refine fin _ (mem_activeStrategies.mpr (.inr (.inl ⟨h1, .inl rfl⟩))) (fun r1 r2 locs b h0 => ?_)
      exact (offers_envLocation h0 _ _).mpr ⟨_, _, h2, h3, h4, h5, rfl⟩
    | envData h1 h2 h3 h4 h5 =>
      refine fin _ (mem_activeStrategies.mpr (.inr (.inl ⟨h1, .inr rfl⟩))) (fun r1 r2 locs b h0 => ?_)
      exact (offers_envData h0 _ _).mpr ⟨_, _, h2, h3, rfl, h5, .inl ⟨h4, rfl⟩⟩
    | envDataEncoded h1 h2 h3 h4 h5 h6 h7 =>
      refine fin _ (mem_activeStrategies.mpr (.inr (.inl ⟨h1, .inr rfl⟩))) (fun r1 r2 locs b h0 => ?_)
      exact (offers_envData h0 _ _).mpr ⟨_, _, h2, h3, rfl, h5, .inr ⟨h4, h7, _, h6⟩⟩
    | hintPath h1 h2 h3 h4 h5 h6 h7 =>
      refine fin _ (mem_activeStrategies.mpr (.inr (.inr ⟨_, h1, rfl⟩))) (fun r1 r2 locs b h0 => ?_)
      exact (offers_external h0 _ _).mpr ⟨_, h3, .inl ⟨h2, h4, h5, h6, _, h7, rfl⟩⟩
    | hintPathOddName h1 h2 h3 h4 h5 =>
      refine fin _ (mem_activeStrategies.mpr (.inr (.inr ⟨_, h1, rfl⟩))) (fun r1 r2 locs b h0 => ?_)
      exact (offers_external h0 _ _).mpr ⟨_, h3, .inr (.inl ⟨h2, rfl, h4, h5, rfl⟩)⟩
    | hintPlain h1 h2 h3 h4 =>
      refine fin _ (mem_activeStrategies.mpr (.inr (.inr ⟨_, h1, rfl⟩))) (fun r1 r2 locs b h0 => ?_)
      exact (offers_external h0 _ _).mpr ⟨_, h3, .inr (.inr (.inl ⟨h2, h4, rfl, rfl⟩))⟩
    | hintEncoded h1 h2 h3 h4 h5 h6 =>
      refine fin _ (mem_activeStrategies.mpr (.inr (.inr ⟨_, h1, rfl⟩))) (fun r1 r2 locs b h0 => ?_)
      exact (offers_external h0 _ _).mpr ⟨_, h3, .inr (.inr (.inr ⟨h2, h4, rfl, h6, _, h5⟩))⟩

/-- The licences that are read are those of the texts offered. -/
theorem mem_readLicenses {cfg : Config} {w : World} {hint : Option LicenseLocation} {feature : Bytes} {r : Registry}
    {lics : List FullLicense} (h : readLicenses cfg w hint feature = .ok (r, lics)) (l : FullLicense) :
    l ∈ lics ↔ ∃ src text, Offers cfg w hint src text ∧ IsLicence feature src text l := by
  simp only [readLicenses] at h
  split at h
  · rename_i he
    obtain ⟨r1, _, h⟩ := Outcome.bind_eq_ok.mp h
    obtain ⟨⟨r2, b2⟩, _, h⟩ := Outcome.bind_eq_ok.mp h
    simp only [Outcome.pure_eq, Outcome.ok.injEq, Prod.mk.injEq] at h
    rw [← h.2]
    simp only [List.isEmpty_iff] at he
    have hok : ∀ l ∈ activeStrategies cfg hint, ∃ r1 r2 locs b, licenseLocations w l r1 = .ok (r2, locs, b) := by
      rw [he]; simp
    simp only [List.not_mem_nil, false_iff]
    rintro ⟨src, text, ho, _⟩
    obtain ⟨l, hl, _⟩ := (located_iff hok src text).mpr ho
    rw [he] at hl; simp at hl
  · obtain ⟨⟨r1, lics'⟩, h1, h⟩ := Outcome.bind_eq_ok.mp h
    have hl : lics' = lics := by
      split at h
      · obtain ⟨⟨r2, b2⟩, _, h⟩ := Outcome.bind_eq_ok.mp h
        simp only [Outcome.pure_eq, Outcome.ok.injEq, Prod.mk.injEq] at h; exact h.2
      · simp only [Outcome.pure_eq, Outcome.ok.injEq, Prod.mk.injEq] at h; exact h.2
    subst hl
    obtain ⟨hok, hm⟩ := readLocators_spec h1
    rw [hm]
    constructor
    · rintro ⟨loc, hl, r1, r2, locs, b, src, text, h3, h4, h5, h6⟩
      exact ⟨src, text, (located_iff hok src text).mp ⟨loc, hl, r1, r2, locs, b, h3, h4, h5⟩, h6⟩
    · rintro ⟨src, text, ho, hi⟩
      obtain ⟨loc, hl, r1, r2, locs, b, h3, h4, h5⟩ := (located_iff hok src text).mpr ho
      exact ⟨loc, hl, r1, r2, locs, b, src, text, h3, h4, h5, hi⟩

end Licensecc
