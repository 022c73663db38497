import Verif.Props.HwIdentifier
import Verif.Spec.Identify
/-!
# C51: which identifier identify_pc produces
-/
namespace Licensecc
open Spec

/-! ## The number in the environment variable -/

theorem isSpace_mem (c : UInt8) : isSpace c = true ↔ c ∈ ([32, 9, 10, 11, 12, 13] : Bytes) := by
  revert c; exact forall_uint8 (by decide +kernel)

theorem isDigit_iff (c : UInt8) : isDigit c = true ↔ 48 ≤ c ∧ c ≤ 57 := by
  revert c; exact forall_uint8 (by decide +kernel)

theorem dropWhile_append_of {p : UInt8 → Bool} (a b : Bytes) (ha : ∀ c ∈ a, p c = true)
    (hb : ∀ c, b.head? = some c → p c = false) : (a ++ b).dropWhile p = b := by
  induction a with
  | nil => cases b with
    | nil => rfl
    | cons c b => simp [List.dropWhile_cons, hb c rfl]
  | cons x a ih =>
    rw [List.cons_append, List.dropWhile_cons, ha x (by simp)]
    exact ih (fun c hc => ha c (by simp [hc]))

theorem digitsValue_append (ds rest : Bytes) (hd : ∀ d ∈ ds, isDigit d = true)
    (hr : ∀ c, rest.head? = some c → isDigit c = false) :
    ∀ v, digitsValue (ds ++ rest) v = ds.foldl (fun v d => v * 10 + (d.toNat - 48)) v := by
  induction ds with
  | nil => intro v; cases rest with
    | nil => rfl
    | cons c r => simp [digitsValue, hr c rfl]
  | cons d ds ih =>
    intro v
    rw [List.cons_append, digitsValue, if_pos (hd d (by simp)), ih (fun x hx => hd x (by simp [hx]))]
    rfl

/-- The number the model reads, before it is cut to 32 bits. -/
def leadingValue (s : Bytes) : Int :=
  match s.dropWhile isSpace with
  | 45 :: r => -(digitsValue r 0 : Int)
  | 43 :: r => (digitsValue r 0 : Int)
  | r => (digitsValue r 0 : Int)

theorem takeWhile_holds {p : UInt8 → Bool} (l : Bytes) : ∀ c ∈ l.takeWhile p, p c = true := by
  induction l with
  | nil => simp
  | cons a l ih =>
    intro c hc
    rw [List.takeWhile_cons] at hc
    split at hc
    · rename_i h; rcases List.mem_cons.mp hc with rfl | hc
      · exact h
      · exact ih c hc
    · simp at hc

theorem head_dropWhile_false {p : UInt8 → Bool} (l : Bytes) : ∀ c, (l.dropWhile p).head? = some c → p c = false := by
  induction l with
  | nil => simp
  | cons a l ih =>
    intro c hc
    rw [List.dropWhile_cons] at hc
    split at hc
    · exact ih c hc
    · rename_i h; simp at hc; subst hc; simpa using h

theorem leadingNumber_iff (t : Bytes) (v : Int) : LeadingNumber t v ↔ v = leadingValue t := by
  have hval : ∀ ds rest : Bytes, (∀ d ∈ ds, 48 ≤ d ∧ d ≤ 57) → (∀ c, rest.head? = some c → ¬ (48 ≤ c ∧ c ≤ 57)) →
      digitsValue (ds ++ rest) 0 = numeral ds := by
    intro ds rest h1 h2
    exact digitsValue_append ds rest (fun d hd => (isDigit_iff d).mpr (h1 d hd))
      (fun c hc => by have := mt (isDigit_iff c).mp (h2 c hc); simpa using this) 0
  constructor
  · rintro ⟨sp, sign, ds, rest, rfl, h1, h2, h3, h4, h5⟩
    have hdrop : (sp ++ sign ++ ds ++ rest).dropWhile isSpace = sign ++ ds ++ rest := by
      rw [show sp ++ sign ++ ds ++ rest = sp ++ (sign ++ ds ++ rest) by simp]
      exact dropWhile_append_of _ _ (fun c hc => (isSpace_mem c).mpr (h1 c hc))
        (fun c hc => by have := mt (isSpace_mem c).mp (h2 c hc); simpa using this)
    rw [leadingValue, hdrop]
    rcases h5 with ⟨rfl, rfl⟩ | ⟨rfl, rfl⟩ | ⟨rfl, rfl, h6⟩
    · simp [hval ds rest h3 h4]
    · simp [hval ds rest h3 h4]
    · rw [List.nil_append, ← hval ds rest h3 h4]
      cases hx : ds ++ rest with
      | nil => rfl
      | cons c r =>
        have := h6 c (by rw [hx]; rfl)
        split
        · rename_i r' h; simp at h; exact absurd h.1 this.1
        · rename_i r' h; simp at h; exact absurd h.1 this.2
        · rfl
  · rintro rfl
    have hsp := takeWhile_holds (p := isSpace) t
    have hhd := head_dropWhile_false (p := isSpace) t
    have hcat := List.takeWhile_append_dropWhile (p := isSpace) (l := t)
    have parts : ∀ r : Bytes, (∀ d ∈ r.takeWhile isDigit, 48 ≤ d ∧ d ≤ 57)
        ∧ (∀ c, (r.dropWhile isDigit).head? = some c → ¬ (48 ≤ c ∧ c ≤ 57)) := fun r =>
      ⟨fun d hd => (isDigit_iff d).mp (takeWhile_holds r d hd),
       fun c hc h => by have := head_dropWhile_false r c hc; rw [(isDigit_iff c).mpr h] at this; simp at this⟩
    have hnum : ∀ r : Bytes, digitsValue r 0 = numeral (r.takeWhile isDigit) := by
      intro r
      have := hval _ _ (parts r).1 (parts r).2
      rwa [List.takeWhile_append_dropWhile] at this
    have hsp' : ∀ c ∈ t.takeWhile isSpace, c ∈ ([32, 9, 10, 11, 12, 13] : Bytes) := fun c hc => (isSpace_mem c).mp (hsp c hc)
    have hhd' : ∀ c, (t.dropWhile isSpace).head? = some c → c ∉ ([32, 9, 10, 11, 12, 13] : Bytes) := by
      intro c hc h
      have := hhd c hc
      rw [(isSpace_mem c).mpr h] at this; simp at this
    cases hx : t.dropWhile isSpace with
    | nil =>
      refine ⟨t.takeWhile isSpace, [], [], [], ?_, hsp', by simp, by simp, by simp, .inr (.inr ⟨rfl, ?_, by simp⟩)⟩
      · rw [hx] at hcat; simpa using hcat.symm
      · simp [leadingValue, hx, digitsValue, numeral]
    | cons c r =>
      rw [hx] at hcat hhd'
      by_cases h1 : c = 45
      · subst h1
        refine ⟨t.takeWhile isSpace, [45], r.takeWhile isDigit, r.dropWhile isDigit, ?_, hsp', by simp, (parts r).1,
          (parts r).2, .inl ⟨rfl, ?_⟩⟩
        · simp only [List.append_assoc, List.takeWhile_append_dropWhile]; exact hcat.symm
        · simp [leadingValue, hx, hnum]
      · by_cases h2 : c = 43
        · subst h2
          refine ⟨t.takeWhile isSpace, [43], r.takeWhile isDigit, r.dropWhile isDigit, ?_, hsp', by simp, (parts r).1,
            (parts r).2, .inr (.inl ⟨rfl, ?_⟩)⟩
          · simp only [List.append_assoc, List.takeWhile_append_dropWhile]; exact hcat.symm
          · simp [leadingValue, hx, hnum]
        · refine ⟨t.takeWhile isSpace, [], (c :: r).takeWhile isDigit, (c :: r).dropWhile isDigit, ?_, hsp', ?_,
            (parts _).1, (parts _).2, .inr (.inr ⟨rfl, ?_, ?_⟩)⟩
          · simp only [List.append_assoc, List.takeWhile_append_dropWhile, List.nil_append]; exact hcat.symm
          · simpa only [List.nil_append, List.takeWhile_append_dropWhile] using hhd'
          · rw [leadingValue, hx]
            split
            · rename_i h; simp at h; exact absurd h.1 h1
            · rename_i h; simp at h; exact absurd h.1 h2
            · rw [hnum]
          · rw [List.takeWhile_append_dropWhile]
            intro x hx; simp at hx; subst hx; exact ⟨h1, h2⟩

theorem readsInt_iff (t : Bytes) (n : Int) : ReadsInt t n ↔ n = atoi t := by
  have ha : atoi t = (let l := max (-(2 : Int) ^ 63) (min ((2 : Int) ^ 63 - 1) (leadingValue t)); let u := l % (2 : Int) ^ 32
      if u < (2 : Int) ^ 31 then u else u - (2 : Int) ^ 32) := rfl
  simp only [ReadsInt, leadingNumber_iff, exists_eq_left, ha]
  generalize leadingValue t = v
  have hl : max (-(2 : Int) ^ 63) (min ((2 : Int) ^ 63 - 1) v)
      = if v < -(2 : Int) ^ 63 then -(2 : Int) ^ 63 else if v > (2 : Int) ^ 63 - 1 then (2 : Int) ^ 63 - 1 else v := by
    split
    · omega
    · split <;> omega
  rw [hl]
  generalize (if v < -(2 : Int) ^ 63 then -(2 : Int) ^ 63 else if v > (2 : Int) ^ 63 - 1 then (2 : Int) ^ 63 - 1 else v) = l
  constructor
  · rintro ⟨h1, h2, k, rfl⟩
    split <;> omega
  · rintro rfl
    refine ⟨by split <;> omega, by split <;> omega, ?_⟩
    split
    · exact ⟨l / 2 ^ 32, by omega⟩
    · exact ⟨l / 2 ^ 32 + 1, by omega⟩

example : LeadingNumber b!" \t-12x" (-12) :=
  ⟨b!" \t", b!"-", b!"12", b!"x", by decide, by decide, by simp, by decide, by simp, .inl ⟨rfl, by decide⟩⟩
-- the number 2^32 + 1 is read as 1
example : ReadsInt b!"4294967297" 1 := (readsInt_iff _ _).mpr (by decide +kernel)

theorem strategyUsed_iff (var : Option Bytes) (strategy n : Int) (used : Bool) :
    StrategyUsed var strategy n used ↔ selectStrategy var strategy = (n, used) := by
  by_cases hs : strategy = -1
  · subst hs
    cases var with
    | none =>
      simp only [selectStrategy]
      constructor
      · intro h; cases h <;> simp_all
      · intro h; simp at h; obtain ⟨rfl, rfl⟩ := h; exact .unset rfl (by simp)
    | some v =>
      cases v with
      | nil =>
        simp only [selectStrategy]
        constructor
        · intro h; cases h <;> simp_all
        · intro h; simp at h; obtain ⟨rfl, rfl⟩ := h; exact .unset rfl (by simp)
      | cons b s =>
        have hb : ((b :: s).takeWhile (· ≠ 0) = []) ↔ b = 0 := by
          rw [List.takeWhile_cons]; by_cases h : b = 0 <;> simp [h]
        simp only [selectStrategy, if_true]
        constructor
        · intro h
          cases h with
          | explicit h => exact absurd rfl h
          | unset _ h => rw [if_pos (hb.mp (h _ rfl))]
          | chosen _ hv h1 h2 h3 h4 =>
            cases hv
            rw [if_neg (mt hb.mpr h1), ← (readsInt_iff _ _).mp h2, if_neg (by omega)]
          | unknown _ hv h1 h2 h3 =>
            cases hv
            rw [if_neg (mt hb.mpr h1), ← (readsInt_iff _ _).mp h2, if_pos (by omega)]
        · intro h
          split at h
          · rename_i h0; simp at h; obtain ⟨rfl, rfl⟩ := h
            exact .unset rfl (by intro v hv; cases hv; exact hb.mpr h0)
          · rename_i h0
            split at h
            · rename_i h1; simp only [Prod.mk.injEq] at h; obtain ⟨rfl, rfl⟩ := h
              exact .unknown rfl rfl (mt hb.mp h0) ((readsInt_iff _ _).mpr rfl) (by omega)
            · rename_i h1; simp only [Prod.mk.injEq] at h; obtain ⟨rfl, rfl⟩ := h
              exact .chosen rfl rfl (mt hb.mp h0) ((readsInt_iff _ _).mpr rfl) (by omega) (by omega)
  · simp only [selectStrategy, if_neg hs]
    constructor
    · intro h; cases h <;> simp_all
    · intro h; simp at h; obtain ⟨rfl, rfl⟩ := h; exact .explicit hs

theorem variableUnknown_iff (var : Option Bytes) (strategy : Int) :
    VariableUnknown var strategy ↔ strategyUnknown var strategy = true := by
  unfold VariableUnknown strategyUnknown
  cases var with
  | none => simp
  | some v =>
    cases v with
    | nil => simp
    | cons b s =>
      have hb : ((b :: s).takeWhile (· ≠ 0) = []) ↔ b = 0 := by
        rw [List.takeWhile_cons]; by_cases h : b = 0 <;> simp [h]
      simp only [Bool.and_eq_true, decide_eq_true_eq, Bool.or_eq_true]
      refine and_congr_right fun _ => ⟨?_, ?_⟩
      · rintro ⟨v, n, hv, h1, h2, h3⟩
        cases hv
        rw [(readsInt_iff _ _).mp h2] at h3
        exact ⟨mt hb.mpr h1, h3⟩
      · rintro ⟨h1, h2⟩
        exact ⟨_, _, rfl, mt hb.mp h1, (readsInt_iff _ _).mpr rfl, h2⟩

/-! ## The first identifier of each strategy -/

theorem filterMap_head {α β : Type} (f : α → Option β) (l : List α) (b : β) :
    (l.filterMap f).head? = some b ↔ ∃ before a after, l = before ++ a :: after ∧ (∀ x ∈ before, f x = none) ∧ f a = some b := by
  induction l with
  | nil => simp
  | cons a l ih =>
    rw [List.filterMap_cons]
    cases h : f a with
    | none =>
      dsimp only
      rw [ih]
      constructor
      · rintro ⟨bf, x, af, rfl, h1, h2⟩
        exact ⟨a :: bf, x, af, rfl, by simpa [h] using h1, h2⟩
      · rintro ⟨bf, x, af, h0, h1, h2⟩
        cases bf with
        | nil => simp at h0; obtain ⟨rfl, rfl⟩ := h0; rw [h] at h2; simp at h2
        | cons y bf =>
          simp at h0; obtain ⟨rfl, rfl⟩ := h0
          exact ⟨bf, x, af, rfl, fun z hz => h1 z (by simp [hz]), h2⟩
    | some c =>
      dsimp only
      constructor
      · intro hh; simp at hh; subst hh; exact ⟨[], a, l, rfl, by simp, h⟩
      · rintro ⟨bf, x, af, h0, h1, h2⟩
        cases bf with
        | nil => simp at h0; obtain ⟨rfl, rfl⟩ := h0; rw [h] at h2; simp at h2; simp [h2]
        | cons y bf =>
          simp at h0; obtain ⟨rfl, rfl⟩ := h0
          have := h1 a (by simp); rw [h] at this; simp at this

theorem flatMap_head {α β : Type} (f : α → List β) (l : List α) (b : β) :
    (l.flatMap f).head? = some b ↔
      ∃ before a after, l = before ++ a :: after ∧ (∀ x ∈ before, f x = []) ∧ (f a).head? = some b := by
  induction l with
  | nil => simp
  | cons a l ih =>
    rw [List.flatMap_cons]
    cases h : f a with
    | nil =>
      rw [List.nil_append, ih]
      constructor
      · rintro ⟨bf, x, af, rfl, h1, h2⟩
        exact ⟨a :: bf, x, af, rfl, by simpa [h] using h1, h2⟩
      · rintro ⟨bf, x, af, h0, h1, h2⟩
        cases bf with
        | nil => simp at h0; obtain ⟨rfl, rfl⟩ := h0; rw [h] at h2; simp at h2
        | cons y bf =>
          simp at h0; obtain ⟨rfl, rfl⟩ := h0
          exact ⟨bf, x, af, rfl, fun z hz => h1 z (by simp [hz]), h2⟩
    | cons c cs =>
      constructor
      · intro hh; simp at hh; subst hh; exact ⟨[], a, l, rfl, by simp, by simp [h]⟩
      · rintro ⟨bf, x, af, h0, h1, h2⟩
        cases bf with
        | nil => simp at h0; obtain ⟨rfl, rfl⟩ := h0; rw [h] at h2; simpa using h2
        | cons y bf =>
          simp at h0; obtain ⟨rfl, rfl⟩ := h0
          have := h1 a (by simp); rw [h] at this; simp at this

/-- The bytes of an identifier after the first. -/
def tailBytes (h : HwId) : Bytes := [h.d1, h.d2, h.d3, h.d4, h.d5, h.d6, h.d7]

theorem generateFirst_iff_payload (m : Machine) (s : Strategy) (hs : s ≠ .default) (h : HwId) :
    generateFirst m s = .ok (some h) ↔
      ∃ ps p, payloads m s = .ok (.ok, ps) ∧ ps.head? = some p ∧ h = idOf s p := by
  rw [generateFirst, alternativeIds_eq m s hs]
  cases hp : payloads m s with
  | ub => simp
  | throw e => simp
  | ok rp =>
    obtain ⟨r, ps⟩ := rp
    by_cases hr : r = .ok
    · subst hr
      simp only [Outcome.ok_bind, if_true, Outcome.pure_eq, Outcome.ok.injEq, Prod.mk.injEq, true_and]
      constructor
      · intro hh
        cases ps with
        | nil => simp at hh
        | cons p ps => simp at hh; exact ⟨p :: ps, p, rfl, rfl, hh.symm⟩
      · rintro ⟨ps', p, rfl, h1, rfl⟩
        cases ps with
        | nil => simp at h1
        | cons q ps => simp at h1; subst h1; rfl
    · simp [hr]

theorem adapterPayload_none (u : Bool) (a : Adapter) : adapterPayload u a = none ↔
    (u = true ∧ a.ip = ⟨0, 0, 0, 0⟩) ∨ (u = false ∧ a.mac = ⟨0, 0, 0, 0, 0, 0⟩) := by
  obtain ⟨⟨m0, m1, m2, m3, m4, m5⟩, ⟨i0, i1, i2, i3⟩⟩ := a
  cases u <;> simp [adapterPayload] <;> grind

theorem adapterPayload_some (u : Bool) (a : Adapter) (p : Payload) : adapterPayload u a = some p ↔
    (u = true ∧ a.ip ≠ ⟨0, 0, 0, 0⟩ ∧ p = ⟨0, a.ip.i0, a.ip.i1, a.ip.i2, a.ip.i3, 42, 42⟩)
    ∨ (u = false ∧ a.mac ≠ ⟨0, 0, 0, 0, 0, 0⟩ ∧ p = ⟨0, a.mac.m0, a.mac.m1, a.mac.m2, a.mac.m3, a.mac.m4, a.mac.m5⟩) := by
  obtain ⟨⟨m0, m1, m2, m3, m4, m5⟩, ⟨i0, i1, i2, i3⟩⟩ := a
  cases u <;> simp [adapterPayload] <;> grind

theorem ethernet_head (m : Machine) (u : Bool) (p : Payload) :
    (∃ ps, generateEthernetIds m u = .ok (.ok, ps) ∧ ps.head? = some p) ↔
    ∃ before a after, m.adapters = .ok (.ok, before ++ a :: after) ∧ (∀ x ∈ before, adapterPayload u x = none)
      ∧ adapterPayload u a = some p := by
  constructor
  · rintro ⟨ps, h, hp⟩
    obtain ⟨as, ha, _⟩ := mem_ethernet m u ps h
    have hne : as ≠ [] := by
      rintro rfl
      simp [generateEthernetIds, ha] at h
    rw [ethernet_ok_of m u as ha hne] at h
    simp only [Outcome.ok.injEq, Prod.mk.injEq, true_and] at h
    subst h
    obtain ⟨bf, a, af, rfl, h1, h2⟩ := (filterMap_head _ _ _).mp hp
    exact ⟨bf, a, af, ha, h1, h2⟩
  · rintro ⟨bf, a, af, ha, h1, h2⟩
    exact ⟨_, ethernet_ok_of m u _ ha (by simp), (filterMap_head _ _ _).mpr ⟨bf, a, af, rfl, h1, h2⟩⟩

theorem disk_head (m : Machine) (p : Payload) :
    (∃ ps, generateDiskIds m = .ok (.ok, ps) ∧ ps.head? = some p) ↔
    ∃ ds before d after, m.disks = .ok (.ok, ds) ∧ preferredFirst ds = before ++ d :: after
      ∧ (∀ x ∈ before, diskPayloads x = []) ∧ (diskPayloads d).head? = some p := by
  have hids : ∀ ds : List Disk, (ds.filter (·.preferred)).flatMap diskPayloads ++ (ds.filter (!·.preferred)).flatMap diskPayloads
      = (preferredFirst ds).flatMap diskPayloads := by intro ds; simp [preferredFirst, List.flatMap_append]
  constructor
  · rintro ⟨ps, h, hp⟩
    obtain ⟨ds, ha, _⟩ := mem_disk m ps h
    simp only [generateDiskIds, ha, Outcome.ok_bind] at h
    rw [if_neg (by simp)] at h
    split at h
    · simp at h
    · simp only [Outcome.pure_eq, Outcome.ok.injEq, Prod.mk.injEq] at h
      rw [← h.2, hids] at hp
      obtain ⟨bf, d, af, h1, h2, h3⟩ := (flatMap_head _ _ _).mp hp
      exact ⟨ds, bf, d, af, ha, h1, h2, h3⟩
  · rintro ⟨ds, bf, d, af, ha, h1, h2, h3⟩
    have hp := (flatMap_head diskPayloads (preferredFirst ds) p).mpr ⟨bf, d, af, h1, h2, h3⟩
    rw [← hids] at hp
    have hne : ds ≠ [] := by rintro rfl; simp at hp
    refine ⟨_, ?_, hp⟩
    simp only [generateDiskIds, ha, Outcome.ok_bind]
    rw [if_neg (by simp), if_neg (by simpa using hne), if_pos (List.length_pos_of_mem (List.mem_of_head? hp))]
    rfl

theorem diskPayloads_nil (d : Disk) : diskPayloads d = [] ↔ d.snInit = false ∧ d.labelInit = false := by
  cases h1 : d.snInit <;> cases h2 : d.labelInit <;> simp [diskPayloads, h1, h2]

theorem diskPayloads_head (d : Disk) (p : Payload) : (diskPayloads d).head? = some p ↔
    (d.snInit = true ∧ p = idBySn d) ∨ (d.snInit = false ∧ d.labelInit = true ∧ p = idByLabel d) := by
  cases h1 : d.snInit <;> cases h2 : d.labelInit <;> simp [diskPayloads, h1, h2, eq_comm]

theorem or40 (c : UInt8) : (0x40 : UInt8) ||| (c &&& 0x1F) = 64 + UInt8.ofNat (c.toNat % 32) := by
  revert c; exact forall_uint8 (by decide +kernel)

theorem label_six (l : Bytes) : (l ++ List.replicate 6 0).take 6
    = [l.getD 0 0, l.getD 1 0, l.getD 2 0, l.getD 3 0, l.getD 4 0, l.getD 5 0] := by
  rcases l with _ | ⟨a, _ | ⟨b, _ | ⟨c, _ | ⟨d, _ | ⟨e, _ | ⟨f, l⟩⟩⟩⟩⟩⟩ <;> simp [List.replicate]

/-- What a concrete strategy generates. -/
theorem generateFirst_identifies (m : Machine) (s : Strategy) (hs : s ≠ .default) (bytes : Bytes) :
    (∃ h, generateFirst m s = .ok (some h) ∧ h.d0 = 0 ∧ tailBytes h = bytes) ↔ Identifies m s.code bytes := by
  have h0 : ∀ c : UInt8, (0 : UInt8) &&& c = 0 := by intro c; simp
  simp only [generateFirst_iff_payload m s hs]
  cases s with
  | default => exact absurd rfl hs
  | ethernet =>
    constructor
    · rintro ⟨h, ⟨ps, p, h1, h2, rfl⟩, _, rfl⟩
      obtain ⟨bf, a, af, ha, hb, hp⟩ := (ethernet_head m false p).mp ⟨ps, h1, h2⟩
      rcases (adapterPayload_some ..).mp hp with ⟨h, _⟩ | ⟨_, h3, rfl⟩
      · simp at h
      · have := Identifies.mac (m := m) ha (fun x hx => by simpa using (adapterPayload_none false x).mp (hb x hx)) h3
        simpa [tailBytes, idOf, Strategy.code] using this
    · intro h
      cases h with
      | @mac before after a ha hb h3 =>
        obtain ⟨ps, h1, h2⟩ := (ethernet_head m false _).mpr ⟨before, a, after, ha,
          fun x hx => (adapterPayload_none false x).mpr (.inr ⟨rfl, hb x hx⟩), (adapterPayload_some false a _).mpr (.inr ⟨rfl, h3, rfl⟩)⟩
        exact ⟨_, ⟨ps, _, h1, h2, rfl⟩, rfl, by simp [tailBytes, idOf]⟩
  | ip =>
    constructor
    · rintro ⟨h, ⟨ps, p, h1, h2, rfl⟩, _, rfl⟩
      obtain ⟨bf, a, af, ha, hb, hp⟩ := (ethernet_head m true p).mp ⟨ps, h1, h2⟩
      rcases (adapterPayload_some ..).mp hp with ⟨_, h3, rfl⟩ | ⟨h, _⟩
      · have := Identifies.ip (m := m) ha (fun x hx => by simpa using (adapterPayload_none true x).mp (hb x hx)) h3
        simpa [tailBytes, idOf, Strategy.code] using this
      · simp at h
    · intro h
      cases h with
      | @ip before after a ha hb h3 =>
        obtain ⟨ps, h1, h2⟩ := (ethernet_head m true _).mpr ⟨before, a, after, ha,
          fun x hx => (adapterPayload_none true x).mpr (.inl ⟨rfl, hb x hx⟩), (adapterPayload_some true a _).mpr (.inl ⟨rfl, h3, rfl⟩)⟩
        exact ⟨_, ⟨ps, _, h1, h2, rfl⟩, rfl, by simp [tailBytes, idOf]⟩
  | disk =>
    constructor
    · rintro ⟨h, ⟨ps, p, h1, h2, rfl⟩, _, rfl⟩
      obtain ⟨ds, bf, d, af, ha, hpf, hb, hp⟩ := (disk_head m p).mp ⟨ps, h1, h2⟩
      have hb' : ∀ x ∈ bf, x.snInit = false ∧ x.labelInit = false := fun x hx => (diskPayloads_nil x).mp (hb x hx)
      rcases (diskPayloads_head ..).mp hp with ⟨h3, rfl⟩ | ⟨h3, h4, rfl⟩
      · have := Identifies.serial (m := m) ha hpf hb' h3
        simpa only [tailBytes, idOf, Strategy.code, idBySn, or40] using this
      · have := Identifies.label (m := m) ha hpf hb' h3 h4 (label_six _)
        simpa only [tailBytes, idOf, Strategy.code, idByLabel, or40] using this
    · intro h
      cases h with
      | @serial ds before after d ha hpf hb h3 =>
        obtain ⟨ps, h1, h2⟩ := (disk_head m _).mpr ⟨ds, before, d, after, ha, hpf, fun x hx => (diskPayloads_nil x).mpr (hb x hx),
          (diskPayloads_head d _).mpr (.inl ⟨h3, rfl⟩)⟩
        exact ⟨_, ⟨ps, _, h1, h2, rfl⟩, rfl, by simp only [tailBytes, idOf, idBySn, or40]⟩
      | @label ds before after d c0 c1 c2 c3 c4 c5 ha hpf hb h3 h4 h5 =>
        obtain ⟨ps, h1, h2⟩ := (disk_head m _).mpr ⟨ds, before, d, after, ha, hpf, fun x hx => (diskPayloads_nil x).mpr (hb x hx),
          (diskPayloads_head d _).mpr (.inr ⟨h3, h4, rfl⟩)⟩
        refine ⟨_, ⟨ps, _, h1, h2, rfl⟩, rfl, ?_⟩
        rw [label_six] at h5
        simp only [List.cons.injEq, and_true] at h5
        obtain ⟨rfl, rfl, rfl, rfl, rfl, rfl⟩ := h5
        simp only [tailBytes, idOf, idByLabel, or40]

theorem print_dashed (h : HwId) : h.print = .ok (dashed (rfc4648 h.toBytes)) := by
  obtain ⟨e0, e1, e2, e3, e4, e5, e6, e7, e8, e9, e10, he, _, hp⟩ := HwId.print_eq h
  rw [hp, ← encodeChars_groups, he]; rfl

theorem generateFirst_d0 (m : Machine) (s : Strategy) (h : HwId) (hg : generateFirst m s = .ok (some h)) : h.d0 = 0 := by
  by_cases hd : s = .default
  · subst hd; simp [generateFirst, alternativeIds] at hg
  · obtain ⟨_, _, _, _, rfl⟩ := (generateFirst_iff_payload m s hd h).mp hg; rfl

theorem generateFirst_bytes (m : Machine) (s : Strategy) (hs : s ≠ .default) (h : HwId) :
    generateFirst m s = .ok (some h) ↔ h.d0 = 0 ∧ Identifies m s.code (tailBytes h) := by
  rw [← generateFirst_identifies m s hs]
  constructor
  · intro hg; have := generateFirst_d0 m s h hg; exact ⟨this, h, hg, this, rfl⟩
  · rintro ⟨h0, k, hk, hk0, ht⟩
    have : k = h := by
      obtain ⟨a0, a1, a2, a3, a4, a5, a6, a7⟩ := h
      obtain ⟨b0, b1, b2, b3, b4, b5, b6, b7⟩ := k
      simp only [tailBytes, List.cons.injEq, and_true] at ht h0 hk0
      subst h0 hk0; obtain ⟨rfl, rfl, rfl, rfl, rfl, rfl, rfl⟩ := ht; rfl
    rw [← this]; exact hk

theorem try_one (m : Machine) (n : Int) (s : Strategy) (ns : List Int) (h : HwId) (hn : getStrategy n = .ok s)
    (hns : ∀ k, tryStrategies m ns ≠ .ok (some k)) :
    tryStrategies m (n :: ns) = .ok (some h) ↔ generateFirst m s = .ok (some h) := by
  simp only [tryStrategies, hn, Outcome.ok_bind]
  cases hg : generateFirst m s with
  | ub => simp
  | throw e => simp
  | ok o => cases o with
    | none => simpa using hns h
    | some k => simp

theorem try_none (m : Machine) (h : HwId) : tryStrategies m [-2] ≠ .ok (some h) := by
  simp [tryStrategies, getStrategy]

theorem try_host (m : Machine) (h : HwId) : tryStrategies m [4, -2] ≠ .ok (some h) := by
  simp [tryStrategies, getStrategy]

theorem generatePcId_bytes (m : Machine) (s : Strategy) (h : HwId) :
    generatePcId m s = .ok (some h) ↔ h.d0 = 0 ∧ Identifies m s.code (tailBytes h) := by
  cases s with
  | default =>
    simp only [generatePcId, Strategy.code]
    constructor
    · intro hg
      obtain ⟨e, he, hg⟩ := Outcome.bind_eq_ok.mp hg
      unfold availableStrategies at hg
      split at hg
      · rename_i hv
        split at hg
        · exact absurd hg (try_none m h)
        · rename_i hdk
          have := (generateFirst_bytes m .ethernet (by simp) h).mp ((try_one m 0 .ethernet [-2] h rfl (try_none m)).mp hg)
          exact ⟨this.1, .virtual he (.inl ⟨hv, by simpa using hdk⟩) this.2⟩
      · rename_i hv
        split at hg
        · exact absurd hg (try_none m h)
        · rename_i hdk
          have := (generateFirst_bytes m .ethernet (by simp) h).mp ((try_one m 0 .ethernet [-2] h rfl (try_none m)).mp hg)
          exact ⟨this.1, .virtual he (.inr ⟨hv, by simpa using hdk⟩) this.2⟩
      · rename_i hv
        have := (generateFirst_bytes m .disk (by simp) h).mp ((try_one m 2 .disk [4, -2] h rfl (try_host m)).mp hg)
        exact ⟨this.1, .bareMetal he hv this.2⟩
    · rintro ⟨h0, hi⟩
      cases hi with
      | bareMetal he hv hi =>
        rw [he]
        simp only [Outcome.ok_bind, availableStrategies, hv]
        exact (try_one m 2 .disk [4, -2] h rfl (try_host m)).mpr ((generateFirst_bytes m .disk (by simp) h).mpr ⟨h0, hi⟩)
      | virtual he hv hi =>
        have hl := (try_one m 0 .ethernet [-2] h rfl (try_none m)).mpr
          ((generateFirst_bytes m .ethernet (by simp) h).mpr ⟨h0, hi⟩)
        rw [he]
        rcases hv with ⟨h1, h2⟩ | ⟨h1, h2⟩ <;> simpa [availableStrategies, h1, h2] using hl
  | ethernet => exact generateFirst_bytes m .ethernet (by simp) h
  | ip => exact generateFirst_bytes m .ip (by simp) h
  | disk => exact generateFirst_bytes m .disk (by simp) h

theorem getStrategy_code (n : Int) (s : Strategy) : getStrategy n = .ok s ↔ n = s.code := by
  unfold getStrategy
  constructor
  · intro h; (repeat' split at h) <;> simp_all <;> subst h <;> rfl
  · rintro rfl; cases s <;> rfl

theorem identifies_known {m : Machine} {n : Int} {b : Bytes} (h : Identifies m n b) : ∃ s : Strategy, n = s.code ∧ ∃ x : HwId, x.d0 = 0 ∧ tailBytes x = b := by
  have h7 : ∀ (b0 b1 b2 b3 b4 b5 b6 : UInt8), ∃ x : HwId, x.d0 = 0 ∧ tailBytes x = [b0, b1, b2, b3, b4, b5, b6] :=
    fun b0 b1 b2 b3 b4 b5 b6 => ⟨⟨0, b0, b1, b2, b3, b4, b5, b6⟩, rfl, rfl⟩
  induction h with
  | mac => exact ⟨.ethernet, rfl, h7 ..⟩
  | ip => exact ⟨.ip, rfl, h7 ..⟩
  | serial => exact ⟨.disk, rfl, h7 ..⟩
  | label => exact ⟨.disk, rfl, h7 ..⟩
  | bareMetal _ _ _ ih => exact ⟨.default, rfl, ih.choose_spec.2⟩
  | «virtual» _ _ _ ih => exact ⟨.default, rfl, ih.choose_spec.2⟩

/-- **C51**: the text that is generated, and when there is one: the strategy is the caller's, or for the default the
    variable's if it is a number between 0 and 3, or else the disk on bare metal and the MAC address in a virtual machine
    outside clouds and a container other than Docker; of the hardware the first usable item is taken.  A variable with another number
    is logged, which must not overrun (C59). -/
theorem C51_identifier (m : Machine) (strategy : Int) (text : Bytes) :
    generateUserPcSignature m strategy = .ok text ↔
      PcIdentifier m strategy text ∧ (VariableUnknown m.strategyVar strategy → m.logOverruns = false) := by
  have henv : ∀ (h : HwId) (u : Bool), h.d0 = 0 → (h.setUseEnvVar u).toBytes = (if u then 64 else 0) :: tailBytes h := by
    rintro ⟨_, d1, d2, d3, d4, d5, d6, d7⟩ u rfl
    cases u <;> simp [HwId.setUseEnvVar, HwId.toBytes, tailBytes]
  constructor
  · intro hg
    simp only [generateUserPcSignature] at hg
    obtain ⟨_, hw, hg⟩ := Outcome.bind_eq_ok.mp hg
    have hwarn : VariableUnknown m.strategyVar strategy → m.logOverruns = false := by
      intro hv
      rw [variableUnknown_iff] at hv
      rw [Machine.warnUnknown, if_pos hv, logged_ok] at hw
      exact hw.1
    refine ⟨?_, hwarn⟩
    obtain ⟨s, hs, hg⟩ := Outcome.bind_eq_ok.mp hg
    obtain ⟨o, ho, hg⟩ := Outcome.bind_eq_ok.mp hg
    cases o with
    | none => simp at hg
    | some h =>
      dsimp only at hg
      obtain ⟨h0, hi⟩ := (generatePcId_bytes m s h).mp ho
      refine ⟨s.code, (selectStrategy m.strategyVar strategy).2, _, ?_, hi, ?_⟩
      · rw [strategyUsed_iff, ← (getStrategy_code _ _).mp hs]
      · rw [print_dashed, henv h _ h0] at hg; exact (Outcome.ok.inj hg).symm
  · rintro ⟨⟨n, used, bytes, h1, h2, rfl⟩, hwarn⟩
    obtain ⟨s, rfl, x, hx0, rfl⟩ := identifies_known h2
    rw [strategyUsed_iff] at h1
    have hw : m.warnUnknown strategy = .ok () := by
      rcases warnUnknown_cases m strategy with h | ⟨_, h3, h4⟩
      · exact h
      · rw [hwarn ((variableUnknown_iff _ _).mpr h4)] at h3; simp at h3
    simp only [generateUserPcSignature, hw, h1, (getStrategy_code s.code s).mpr rfl, Outcome.ok_bind,
      (generatePcId_bytes m s x).mpr ⟨hx0, h2⟩, print_dashed, henv x _ hx0]

theorem identifies_log {m : Machine} {n : Int} {bytes : Bytes} (b : Bool) (h : Identifies m n bytes) :
    Identifies { m with logOverruns := b } n bytes := by
  induction h with
  | mac h1 h2 h3 => exact .mac h1 h2 h3
  | ip h1 h2 h3 => exact .ip h1 h2 h3
  | serial h1 h2 h3 h4 => exact .serial h1 h2 h3 h4
  | label h1 h2 h3 h4 h5 h6 => exact .label h1 h2 h3 h4 h5 h6
  | bareMetal h1 h2 _ ih => exact .bareMetal h1 h2 ih
  | «virtual» h1 h2 _ ih => exact .virtual h1 h2 ih

theorem pcIdentifier_log {m : Machine} {n : Int} {text : Bytes} (b : Bool) (h : PcIdentifier m n text) :
    PcIdentifier { m with logOverruns := b } n text := by
  obtain ⟨k, u, bytes, h1, h2, h3⟩ := h
  exact ⟨k, u, bytes, h1, identifies_log b h2, h3⟩

/-- **C51**: there is at most one such text. -/
theorem C51_identifier_unique (m : Machine) (strategy : Int) (t t' : Bytes) (h : PcIdentifier m strategy t)
    (h' : PcIdentifier m strategy t') : t = t' := by
  have a := (C51_identifier { m with logOverruns := false } strategy t).mpr ⟨pcIdentifier_log _ h, fun _ => rfl⟩
  rw [(C51_identifier { m with logOverruns := false } strategy t').mpr ⟨pcIdentifier_log _ h', fun _ => rfl⟩] at a
  exact (Outcome.ok.inj a).symm

/-- **C51**: identify_pc with a buffer of more than 19 bytes, when the operating system interfaces answer and logging works: it returns true
    and stores the text iff there is one, and otherwise false without touching the buffer. -/
theorem C51_identify_pc (m : Machine) (strategy : Int) (mem : Bytes) (n : Nat) (hn : 19 < n) (hmem : n ≤ mem.length)
    (ha : m.adapters ≠ .ub) (hd : m.disks ≠ .ub) (he : m.exec ≠ .ub) (hlog : m.logOverruns = false) :
    (∀ text, PcIdentifier m strategy text →
      identifyPc m strategy (some mem) n = .ok ⟨true, n, some (text ++ 0 :: mem.drop 15)⟩)
    ∧ ((¬ ∃ text, PcIdentifier m strategy text) → identifyPc m strategy (some mem) n = .ok ⟨false, n, some mem⟩) := by
  have hno : generateUserPcSignature m strategy ≠ .ub := by
    have hpay : ∀ s, payloads m s ≠ .ub := by
      intro s hs
      cases s with
      | default => simp [payloads] at hs
      | ethernet => exact ha ((adapters_ub m false).mp hs)
      | ip => exact ha ((adapters_ub m true).mp hs)
      | disk => exact hd ((disks_ub m).mp hs)
    have hfirst : ∀ s, generateFirst m s ≠ .ub := by
      intro s hs
      rcases Outcome.bind_eq_ub.mp hs with h | ⟨_, _, h⟩
      · exact hpay s ((alternativeIds_ub m s).mp h)
      · simp at h
    have hget : ∀ k, getStrategy k ≠ .ub := by
      intro k; unfold getStrategy; repeat' split
      all_goals simp
    have htry : ∀ l, tryStrategies m l ≠ .ub := by
      intro l
      induction l with
      | nil => simp [tryStrategies]
      | cons k l ih =>
        intro h
        simp only [tryStrategies] at h
        rcases Outcome.bind_eq_ub.mp h with h | ⟨s, _, h⟩
        · exact hget k h
        · rcases Outcome.bind_eq_ub.mp h with h | ⟨o, _, h⟩
          · exact hfirst s h
          · cases o with
            | none => exact ih h
            | some x => simp at h
    intro h
    simp only [generateUserPcSignature] at h
    have hw : m.warnUnknown strategy = .ok () := by
      rcases warnUnknown_cases m strategy with h | ⟨_, h3, _⟩
      · exact h
      · rw [hlog] at h3; simp at h3
    rw [hw, Outcome.ok_bind] at h
    rcases Outcome.bind_eq_ub.mp h with h | ⟨s, _, h⟩
    · exact hget _ h
    · rcases Outcome.bind_eq_ub.mp h with h | ⟨o, _, h⟩
      · cases s with
        | default =>
          simp only [generatePcId] at h
          rcases Outcome.bind_eq_ub.mp h with h | ⟨e, _, h⟩
          · exact he h
          · exact htry _ h
        | ethernet => exact hfirst _ h
        | ip => exact hfirst _ h
        | disk => exact hfirst _ h
      · cases o with
        | none => simp at h
        | some x => simp only [print_dashed] at h; simp at h
  constructor
  · intro text ht
    have hg := (C51_identifier m strategy text).mpr ⟨ht, fun _ => hlog⟩
    rcases C29_large_buffer m strategy mem n hn hmem with ⟨_, h | ⟨h, _⟩⟩ | h | ⟨id, h, _, _, _⟩
    · exact absurd h hno
    · rw [hlog] at h; simp at h
    · exfalso
      simp only [identifyPc] at h
      rw [if_pos (by omega), hg] at h
      dsimp only at h
      split at h <;> simp at h
    · rw [h]
      simp only [identifyPc] at h
      rw [if_pos (by omega), hg] at h
      dsimp only at h
      obtain ⟨x, _, hp⟩ := generateUser_some m strategy text hg
      obtain ⟨s, hs, hlen, h0⟩ := print_length x
      rw [hp] at hs; cases hs
      rw [C37_mstrlcpy mem text [] n h0 (by omega) hmem] at h
      dsimp only at h
      rw [hlen, List.take_of_length_le (by omega), Nat.min_eq_left (by omega)] at h
      simp only [Outcome.ok.injEq, IdentifyResult.mk.injEq, true_and, Option.some.injEq] at h ⊢
      exact h.symm
  · intro hnone
    simp only [identifyPc]
    rw [if_pos (by omega)]
    cases hg : generateUserPcSignature m strategy with
    | ub => exact absurd hg hno
    | throw e => exact logged_eq hlog _
    | ok id => exact absurd ⟨id, ((C51_identifier m strategy id).mp hg).1⟩ hnone

/-- **C51**: a variable that is not a number at all selects the MAC address. -/
theorem C51_text_selects_ethernet (v : Bytes) (c : UInt8) (hv : v.takeWhile (· ≠ 0) = v) (hc : v.head? = some c)
    (hl : 65 ≤ c) : StrategyUsed (some v) (-1) 0 true := by
  have hr : ReadsInt v 0 := by
    refine ⟨0, ⟨[], [], [], v, rfl, by simp, ?_, by simp, ?_, .inr (.inr ⟨rfl, rfl, ?_⟩)⟩, by decide, by decide, 0, by decide⟩
    · intro x hx
      have hx : v.head? = some x := hx
      rw [hc] at hx; cases hx
      revert hl; exact forall_uint8 (P := fun c => 65 ≤ c → c ∉ ([32, 9, 10, 11, 12, 13] : Bytes)) (by decide +kernel) c
    · intro x hx
      rw [hc] at hx; cases hx
      revert hl; exact forall_uint8 (P := fun c => 65 ≤ c → ¬ (48 ≤ c ∧ c ≤ 57)) (by decide +kernel) c
    · intro x hx
      have hx : v.head? = some x := hx
      rw [hc] at hx; cases hx
      revert hl; exact forall_uint8 (P := fun c => 65 ≤ c → c ≠ 45 ∧ c ≠ 43) (by decide +kernel) c
  refine .chosen rfl rfl ?_ (by rw [hv]; exact hr) (by omega) (by omega)
  rw [hv]; rintro rfl; simp at hc

/-- **C51**: with the variable set to 3, the default strategy never succeeds, although other values out of range are
    ignored. -/
theorem C51_variable_three_fails (m : Machine) (h : m.strategyVar = some b!"3") (text : Bytes) :
    ¬ PcIdentifier m (-1) text := by
  intro hp
  have hp := (C51_identifier { m with logOverruns := false } (-1) text).mpr ⟨pcIdentifier_log _ hp, fun _ => rfl⟩
  have : selectStrategy (some b!"3") (-1) = (3, true) := by decide +kernel
  have hu : strategyUnknown (some b!"3") (-1) = false := by decide +kernel
  simp [generateUserPcSignature, Machine.warnUnknown, h, this, hu, getStrategy] at hp

/-- **C51**: in a Docker container or a cloud machine the default strategy never produces an identifier. -/
theorem C51_docker_and_cloud_fail (m : Machine) (e : ExecSummary) (hm : m.exec = .ok e) (hv : m.strategyVar = none)
    (h : e.virtualization = .container ∧ e.isDocker = true ∨ e.virtualization = .vm ∧ e.isCloud = true) (text : Bytes) :
    ¬ PcIdentifier m (-1) text := by
  intro hp
  have hp := (C51_identifier { m with logOverruns := false } (-1) text).mpr ⟨pcIdentifier_log _ hp, fun _ => rfl⟩
  rw [default_strategy_fails_in_docker_and_cloud { m with logOverruns := false } e hm hv h] at hp; simp at hp

/-- **C51**: on bare metal without a disk that has a serial number or label the default strategy fails even if there are
    network adapters. -/
theorem C51_no_disk_fails (m : Machine) (e : ExecSummary) (ds : List Disk) (hm : m.exec = .ok e)
    (hb : e.virtualization = .none) (hv : m.strategyVar = none) (hd : m.disks = .ok (.ok, ds))
    (hn : ∀ d ∈ ds, d.snInit = false ∧ d.labelInit = false) (text : Bytes) : ¬ PcIdentifier m (-1) text := by
  rintro ⟨n, used, bytes, h1, h2, _⟩
  have hn1 : n = -1 := by
    cases h1 with
    | explicit h => exact absurd rfl h
    | unset => rfl
    | chosen _ h => rw [hv] at h; simp at h
    | unknown _ h => rfl
  subst hn1
  cases h2 with
  | bareMetal he hv2 h3 =>
    have hmem : ∀ {bf d af}, preferredFirst ds = bf ++ d :: af → d ∈ ds := by
      intro bf d af h
      have : d ∈ preferredFirst ds := by rw [h]; simp
      simp only [preferredFirst, List.mem_append, List.mem_filter] at this
      rcases this with h | h <;> exact h.1
    cases h3 with
    | serial h3 h4 _ h5 => rw [hd] at h3; cases h3; have := hn _ (hmem h4); rw [this.1] at h5; simp at h5
    | label h3 h4 _ _ h5 => rw [hd] at h3; cases h3; have := hn _ (hmem h4); rw [this.2] at h5; simp at h5
  | «virtual» he hv2 h3 =>
    rw [hm] at he; cases he
    rcases hv2 with ⟨h, _⟩ | ⟨h, _⟩ <;> rw [hb] at h <;> simp at h

example : PcIdentifier sampleMachine (-1) b!"AEEC-AwQF-Bgc=" := ((C51_identifier ..).mp (by decide +kernel)).1
example : PcIdentifier { sampleMachine with strategyVar := some b!"anything" } (-1) b!"QAAB-AgME-BQY=" :=
  ((C51_identifier ..).mp (by decide +kernel)).1

end Licensecc
