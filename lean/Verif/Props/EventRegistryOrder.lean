import Verif.Props.EventRegistry
import Verif.Lemmas.Order
/-!
# Which failure is reported (C32)
-/
namespace Licensecc
open Registry

/-- Induction on lists from the end. -/
theorem snoc_induction {α : Type} {P : List α → Prop} (nil : P []) (snoc : ∀ l x, P l → P (l ++ [x])) (l : List α) : P l := by
  have : ∀ l : List α, P l.reverse := by
    intro l
    induction l with
    | nil => exact nil
    | cons x l ih => rw [List.reverse_cons]; exact snoc _ _ ih
  simpa using this l.reverse

/-- Invariant of registries built by adding events only: the map holds exactly the last event of each licence that
    reached the furthest stage. -/
def Exact (r : Registry) : Prop :=
  (r.step = -1 ∧ r.adv = [] ∧ ∀ e ∈ r.logs, Spec.stage e.type = none)
  ∨ (Spec.Furthest r.logs r.step ∧ ∀ k i, SMap.find? k r.adv = some i ↔ Spec.LastAt r.logs r.step k i)

theorem mkEvent_type (p : Platform) (t : EventType) (ref info : Option Bytes) : (mkEvent p t ref info).type = t := rfl

theorem reaches_snoc (logs : List Event) (e : Event) (s : Int) (k : Bytes) (j : Nat) :
    Spec.ReachesAt (logs ++ [e]) s k j ↔
      Spec.ReachesAt logs s k j ∨ (j = logs.length ∧ e.ref = k ∧ Spec.stage e.type = some s) := by
  simp only [Spec.ReachesAt, getElem?_snoc]
  by_cases h : j < logs.length
  · simp only [h, if_true]
    constructor
    · exact .inl
    · rintro (h' | ⟨h', _⟩)
      · exact h'
      · omega
  · simp only [h, if_false]
    have hn : logs[j]? = none := List.getElem?_eq_none (by omega)
    by_cases h2 : j = logs.length
    · simp [h2]
    · simp [h2, hn]

theorem reaches_lt {logs : List Event} {s : Int} {k : Bytes} {j : Nat} (h : Spec.ReachesAt logs s k j) : j < logs.length := by
  obtain ⟨e, he, _⟩ := h
  rcases Nat.lt_or_ge j logs.length with h' | h'
  · exact h'
  · rw [List.getElem?_eq_none h'] at he; simp at he

theorem counts_lt {logs : List Event} {s : Int} {k : Bytes} {j : Nat} (h : Spec.CountsAt logs s k j) : j < logs.length := by
  rcases h with h | ⟨e, he, _⟩
  · exact reaches_lt h
  · rcases Nat.lt_or_ge j logs.length with h' | h'
    · exact h'
    · rw [List.getElem?_eq_none h'] at he; simp at he

theorem counts_snoc (logs : List Event) (e : Event) (s : Int) (k : Bytes) (j : Nat) :
    Spec.CountsAt (logs ++ [e]) s k j ↔ Spec.CountsAt logs s k j ∨ (j = logs.length ∧ e.ref = k ∧
      (Spec.stage e.type = some s ∨ Spec.stage e.type = none ∧ ∃ j, Spec.ReachesAt logs s k j)) := by
  unfold Spec.CountsAt
  rw [reaches_snoc]
  simp only [getElem?_snoc, reaches_snoc]
  by_cases h : j < logs.length
  · have hne : ¬ j = logs.length := by omega
    simp only [h, if_true, hne, false_and, or_false]
    refine or_congr_right ?_
    constructor
    · rintro ⟨e', h1, h2, h3, j', hj', h4 | ⟨h4, _⟩⟩
      · exact ⟨e', h1, h2, h3, j', hj', h4⟩
      · omega
    · rintro ⟨e', h1, h2, h3, j', hj', h4⟩
      exact ⟨e', h1, h2, h3, j', hj', .inl h4⟩
  · have hn : logs[j]? = none := List.getElem?_eq_none (by omega)
    have hr : ¬ Spec.ReachesAt logs s k j := fun hh => h (reaches_lt hh)
    by_cases h2 : j = logs.length
    · subst h2
      simp only [Nat.lt_irrefl, if_false, if_true, hr, false_or, true_and, Option.some.injEq, hn, reduceCtorEq, false_and,
        exists_false, or_false, exists_eq_left']
      constructor
      · rintro (⟨h1, h3⟩ | ⟨h1, h3, j', hj', h4 | ⟨h4, _⟩⟩)
        · exact ⟨h1, .inl h3⟩
        · exact ⟨h1, .inr ⟨h3, j', h4⟩⟩
        · omega
      · rintro ⟨h1, h3 | ⟨h3, j', h4⟩⟩
        · exact .inl ⟨h1, h3⟩
        · exact .inr ⟨h1, h3, j', reaches_lt h4, .inl h4⟩
    · simp [h, h2, hr]

/-- A licence that reached the stage has a last event there. -/
theorem lastAt_exists {logs : List Event} {s : Int} {k : Bytes} {j : Nat} (h : Spec.ReachesAt logs s k j) :
    ∃ i, Spec.LastAt logs s k i := by
  have key : ∀ n, (∃ i, Spec.CountsAt logs s k i ∧ logs.length - i ≤ n) → ∃ i, Spec.LastAt logs s k i := by
    intro n
    induction n with
    | zero =>
      rintro ⟨i, hi, hn⟩
      have := counts_lt hi
      omega
    | succ n ih =>
      rintro ⟨i, hi, hn⟩
      by_cases hmax : ∀ i', Spec.CountsAt logs s k i' → i' ≤ i
      · exact ⟨i, hi, hmax⟩
      · simp only [Classical.not_forall] at hmax
        obtain ⟨i', hi', hlt⟩ := hmax
        have := counts_lt hi'
        exact ih ⟨i', hi', by omega⟩
  exact key (logs.length - j) ⟨j, .inl h, Nat.le_refl _⟩

theorem lastAt_reaches {logs : List Event} {s : Int} {k : Bytes} {i : Nat} (h : Spec.LastAt logs s k i) :
    ∃ j, Spec.ReachesAt logs s k j := by
  rcases h.1 with h | ⟨_, _, _, _, j, _, h⟩
  · exact ⟨i, h⟩
  · exact ⟨j, h⟩

theorem lastAt_unique {logs : List Event} {s : Int} {k : Bytes} {i i' : Nat} (h : Spec.LastAt logs s k i)
    (h' : Spec.LastAt logs s k i') : i = i' := Nat.le_antisymm (h'.2 i h.1) (h.2 i' h'.1)

theorem furthest_snoc_lower {logs : List Event} {e : Event} {s : Int} (h : Spec.Furthest logs s)
    (he : ∀ s', Spec.stage e.type = some s' → s' ≤ s) : Spec.Furthest (logs ++ [e]) s := by
  obtain ⟨⟨e0, h0, h1⟩, h2⟩ := h
  refine ⟨⟨e0, by simp [h0], h1⟩, ?_⟩
  intro e' he' s' hs'
  rcases List.mem_append.mp he' with he' | he'
  · exact h2 e' he' s' hs'
  · simp at he'; subst he'; exact he s' hs'

theorem exact_add {r r' : Registry} {t : EventType} {ref info : Option Bytes} (hr : Exact r)
    (h : r.addEvent t ref info = .ok r') : Exact r' := by
  obtain ⟨hl, hc⟩ := addEvent_cases h
  simp only [progress_eq_stage] at hc
  have hneg : ∀ s, Spec.stage t = some s → 0 ≤ s := by
    intro s hs; rw [← progress_eq_stage] at hs; cases t <;> simp [progress] at hs <;> omega
  generalize he : mkEvent r.platform t ref info = e at hl hc
  have het : e.type = t := by rw [← he]; rfl
  rcases hc with ⟨s, hs, hlt, hlen, hstep, ha⟩ | ⟨hs, hlen, hstep, ha⟩ | ⟨s, hs, hlt, hstep, ha⟩ | ⟨hs, hlen, hstep, hcase⟩
  · -- a new furthest stage
    right
    have hbelow : ∀ e' ∈ r.logs, ∀ s', Spec.stage e'.type = some s' → s' < s := by
      intro e' he' s' hs'
      rcases hr with ⟨h1, _, h2⟩ | ⟨h1, _⟩
      · rw [h2 e' he'] at hs'; cases hs'
      · have := h1.2 e' he' s' hs'; omega
    have hnr : ∀ k j, ¬ Spec.ReachesAt r.logs s k j := by
      rintro k j ⟨e', h1, _, h2⟩
      have := hbelow e' (List.mem_of_getElem? h1) s h2; omega
    have hnc : ∀ k j, ¬ Spec.CountsAt r.logs s k j := by
      rintro k j (h1 | ⟨_, _, _, _, j', _, h1⟩)
      · exact hnr k j h1
      · exact hnr k j' h1
    rw [hl, hstep, ha]
    refine ⟨⟨⟨e, by simp, by rw [het]; exact hs⟩, ?_⟩, ?_⟩
    · intro e' he' s' hs'
      rcases List.mem_append.mp he' with he' | he'
      · have := hbelow e' he' s' hs'; omega
      · simp at he'; subst he'; rw [het, hs] at hs'; cases hs'; omega
    · intro k i
      rw [SMap.find_insert]
      simp only [SMap.find?, Spec.LastAt, counts_snoc, hnc, false_or, het, hs, true_or, and_true]
      by_cases hk : k = e.ref
      · subst hk; simp [eq_comm]
        intro h1; omega
      · have hk' : ¬ e.ref = k := fun h => hk h.symm
        simp [hk, hk']
  · -- the same stage again
    right
    rcases hr with ⟨h1, _, _⟩ | ⟨h1, h2⟩
    · have := hneg _ hs; omega
    rw [hl, hstep, ha]
    refine ⟨furthest_snoc_lower h1 (by intro s' hs'; rw [het, hs] at hs'; cases hs'; omega), ?_⟩
    intro k i
    rw [SMap.find_insert]
    by_cases hk : k = e.ref
    · subst hk
      simp only [if_true, Option.some.injEq, Spec.LastAt, counts_snoc, het, hs, true_or, and_true]
      constructor
      · rintro rfl
        refine ⟨.inr rfl, ?_⟩
        rintro i' (h | h)
        · have := counts_lt h; omega
        · omega
      · rintro ⟨h3 | h3, h4⟩
        · have := counts_lt h3
          have := h4 r.logs.length (.inr rfl)
          omega
        · exact h3.symm
    · rw [if_neg hk, h2 k i]
      have hk' : ¬ e.ref = k := fun h => hk h.symm
      simp only [Spec.LastAt, counts_snoc, hk', false_and, and_false, or_false]
  · -- a stage behind the furthest
    right
    rcases hr with ⟨h1, _, _⟩ | ⟨h1, h2⟩
    · have := hneg _ hs; omega
    rw [hl, hstep, ha]
    refine ⟨furthest_snoc_lower h1 (by intro s' hs'; rw [het, hs] at hs'; cases hs'; omega), ?_⟩
    intro k i
    rw [h2 k i]
    have : ¬ s = r.step := by omega
    simp [Spec.LastAt, counts_snoc, het, hs, this]
  · -- a failure
    rcases hr with ⟨h1, h2, h3⟩ | ⟨h1, h2⟩
    · left
      rw [h2] at hcase
      rcases hcase with ⟨⟨i, hi⟩, _⟩ | ⟨_, ha⟩
      · simp [SMap.find?] at hi
      · refine ⟨by rw [hstep, h1], ha, ?_⟩
        rw [hl]
        intro e' he'
        rcases List.mem_append.mp he' with he' | he'
        · exact h3 e' he'
        · simp at he'; subst he'; rw [het]; exact hs
    · right
      rw [hl, hstep]
      refine ⟨furthest_snoc_lower h1 (by intro s' hs'; rw [het, hs] at hs'; cases hs'), ?_⟩
      intro k i
      rcases hcase with ⟨⟨i0, hi0⟩, ha⟩ | ⟨hn, ha⟩
      · obtain ⟨j0, hj0⟩ := lastAt_reaches ((h2 _ _).mp hi0)
        rw [ha, SMap.find_insert]
        by_cases hk : k = e.ref
        · subst hk
          simp only [if_true, Option.some.injEq, Spec.LastAt, counts_snoc, het, hs, true_and, reduceCtorEq, false_or]
          constructor
          · rintro rfl
            refine ⟨.inr ⟨rfl, j0, hj0⟩, ?_⟩
            rintro i' (h | ⟨h, _⟩)
            · have := counts_lt h; omega
            · omega
          · rintro ⟨h3 | h3, h4⟩
            · have := counts_lt h3
              have := h4 r.logs.length (.inr ⟨rfl, j0, hj0⟩)
              omega
            · exact h3.1.symm
        · rw [if_neg hk, h2 k i]
          have hk' : ¬ e.ref = k := fun h => hk h.symm
          simp only [Spec.LastAt, counts_snoc, hk', false_and, and_false, or_false]
      · rw [ha, h2 k i]
        have hnr : ∀ j, ¬ Spec.ReachesAt r.logs r.step e.ref j := by
          intro j hj
          obtain ⟨i1, hi1⟩ := lastAt_exists hj
          rw [(h2 _ _).mpr hi1] at hn; simp at hn
        by_cases hk : e.ref = k
        · subst hk
          simp only [Spec.LastAt, counts_snoc, het, hs, reduceCtorEq, hnr, exists_false, and_false, or_false]
        · simp only [Spec.LastAt, counts_snoc, hk, false_and, and_false, or_false]

theorem exact_addHistory {r : Registry} (h : Spec.AddHistory r) : Exact r ∧ r.Inv
    ∧ ∀ e ∈ r.logs, e.severity = if Spec.stage e.type = none then Severity.warn else Severity.info := by
  induction h with
  | empty => exact ⟨.inl ⟨rfl, rfl, by simp [Registry.empty]⟩, inv_history (.empty _), by simp [Registry.empty]⟩
  | @add r r' t ref info _ h ih =>
    refine ⟨exact_add ih.1 h, inv_add ih.2.1 h, ?_⟩
    rw [(addEvent_cases h).1]
    intro e he
    rcases List.mem_append.mp he with he | he
    · exact ih.2.2 e he
    · simp at he; subst he
      simp only [mkEvent, ← progress_eq_stage]
      cases progress t <;> rfl

/-- **C32**: for a registry built by adding events, the map of most advanced events is exactly the one of the
    specification: licence `k` is in it with index `i` iff `k` reached the furthest stage of all and `i` is its last
    event there. -/
theorem C32_most_advanced_exact {r : Registry} (h : Spec.AddHistory r) (s : Int) (hs : Spec.Furthest r.logs s) (k : Bytes)
    (i : Nat) : (k, i) ∈ r.adv ↔ Spec.LastAt r.logs s k i := by
  obtain ⟨he, hi, _⟩ := exact_addHistory h
  rcases he with ⟨_, _, h1⟩ | ⟨h1, h2⟩
  · obtain ⟨⟨e, hm, hst⟩, _⟩ := hs; rw [h1 e hm] at hst; cases hst
  · have : s = r.step := by
      obtain ⟨⟨e, hm, hst⟩, hmax⟩ := hs
      obtain ⟨⟨e', hm', hst'⟩, hmax'⟩ := h1
      have := hmax e' hm' _ hst'
      have := hmax' e hm _ hst
      omega
    subst this
    rw [SMap.mem_iff_find hi.sorted, h2]

/-- The failed licences among the most advanced ones are those with a raised event in the map. -/
theorem failedFurthest_iff {r : Registry} (h : Spec.AddHistory r) (k : Bytes) (e : Event) :
    Spec.FailedFurthest r.logs k e ↔ ∃ i, (k, i) ∈ r.adv ∧ r.logs[i]? = some e ∧ e.severity ≠ .info := by
  obtain ⟨he, hi, hsev⟩ := exact_addHistory h
  have hs : ∀ (i : Nat) (e : Event), r.logs[i]? = some e → (Spec.IsFailure e.type ↔ e.severity ≠ .info) := by
    intro i e hi
    have := hsev e (List.mem_of_getElem? hi)
    unfold Spec.IsFailure
    by_cases hst : Spec.stage e.type = none <;> simp [this, hst]
  constructor
  · rintro ⟨s, i, h1, h2, h3, h4⟩
    exact ⟨i, (C32_most_advanced_exact h s h1 k i).mpr h2, h3, (hs i e h3).mp h4⟩
  · rintro ⟨i, h1, h2, h3⟩
    rcases he with ⟨_, h0, _⟩ | ⟨h0, _⟩
    · rw [h0] at h1; simp at h1
    · exact ⟨r.step, i, h0, (C32_most_advanced_exact h _ h0 k i).mp h1, h2, (hs i e h2).mpr h3⟩

/-- **C32**: after the warnings of a registry built by adding events are turned into errors, the reported failure is
    decided by the log alone: if some licence failed at the furthest stage of all, the failure of the smallest such
    licence (in byte order of the references) is reported; otherwise the last failure of the log, if any. -/
theorem C32_reported_failure {r r' : Registry} {b : Bool} (h : Spec.AddHistory r)
    (hw : r.turnWarningsIntoErrors = .ok (r', b)) :
    (∃ k e, Spec.FailedFurthest r.logs k e ∧ r'.getLastFailure = .ok (some { e with severity := .error })
        ∧ ∀ k' e', Spec.FailedFurthest r.logs k' e' → k' = k ∨ Spec.Before k k')
    ∨ ((∀ k e, ¬ Spec.FailedFurthest r.logs k e)
        ∧ ((∃ pre e post, r.logs = pre ++ e :: post ∧ Spec.IsFailure e.type ∧ (∀ x ∈ post, ¬ Spec.IsFailure x.type)
              ∧ r'.getLastFailure = .ok (some { e with severity := .error }))
          ∨ ((∀ e ∈ r.logs, ¬ Spec.IsFailure e.type) ∧ r'.getLastFailure = .ok none))) := by
  simp only [Licensecc.before_iff]
  obtain ⟨_, hinv, hsev⟩ := exact_addHistory h
  have hff := failedFurthest_iff h
  have hs : ∀ e ∈ r.logs, (Spec.IsFailure e.type ↔ e.severity = .warn) ∧ e.severity ≠ .error := by
    intro e he
    have := hsev e he
    unfold Spec.IsFailure
    by_cases hst : Spec.stage e.type = none <;> simp [this, hst]
  obtain ⟨r'', f, h1, h2, h3, h4, h5, h6, h7⟩ := turnWarnings_spec hinv
  rw [h1] at hw; cases hw
  have hinv' : r'.Inv := inv_severity hinv h2 h3
  have hb : ∀ p ∈ r'.adv, ∃ e, r'.logs[p.2]? = some e := fun p hp => by
    obtain ⟨e, he, _⟩ := hinv'.bound p hp; exact ⟨e, he⟩
  have hlen : r'.logs.length = r.logs.length := by
    have := congrArg List.length h2; simpa using this.symm
  by_cases hc : ∃ p ∈ r.adv, ∃ e, r.logs[p.2]? = some e ∧ e.severity ≠ .info
  · left
    have h6 := h6 hc
    have herr : ∀ p ∈ r.adv, ∀ e', r'.logs[p.2]? = some e' → (e'.severity = .error ↔
        ∃ e, r.logs[p.2]? = some e ∧ e.severity ≠ .info ∧ e' = { e with severity := .error }) := by
      intro p hp e' he'
      obtain ⟨e, g1, g2, g3, g4⟩ := SameButSeverity.get (l := r'.logs) (l' := r.logs) (Eq.symm h2) he'
      obtain ⟨e2, k1, k2⟩ := h6 p.2 e g1
      rw [he'] at k1; cases k1
      constructor
      · intro hse
        rcases k2 with ⟨_, k3, _⟩ | ⟨k3, k4⟩
        · refine ⟨e, g1, k3, ?_⟩
          cases e; cases e'; simp_all
        · exact absurd (k4 ▸ hse) (hs e (List.mem_of_getElem? g1)).2
      · rintro ⟨e3, m1, m2, m3⟩; rw [m3]
    rcases findAdvError_spec r'.logs r'.adv hb with ⟨g1, g2⟩ | ⟨pre, k, i, post, e', g1, g2, g3, g4, g5⟩
    · exfalso
      obtain ⟨p, hp, e, he, hse⟩ := hc
      obtain ⟨e2, k1, k2⟩ := h6 p.2 e he
      have : e2.severity = .error := by
        rcases k2 with ⟨_, _, k3⟩ | ⟨k3, _⟩
        · exact k3
        · exact absurd ⟨⟨p, hp, rfl⟩, hse⟩ k3
      exact g2 p (by rw [h3]; exact hp) e2 k1 this
    · rw [h3] at g1
      have hmem : (k, i) ∈ r.adv := by rw [g1]; simp
      obtain ⟨e, m1, m2, m3⟩ := (herr (k, i) hmem e' g2).mp g3
      refine ⟨k, e, (hff k e).mpr ⟨i, hmem, m1, m2⟩, ?_, ?_⟩
      · have hnz : r'.logs.length ≠ 0 := by
          intro h0
          have := List.length_eq_zero_iff.mp h0
          rw [this] at g2; simp at g2
        simp only [getLastFailure, hnz, if_false, g4, Outcome.ok_bind, m3]; rfl
      · intro k' e0 hfe
        obtain ⟨i', n1, n2, n3⟩ := (hff k' e0).mp hfe
        rw [g1] at n1
        rcases List.mem_append.mp n1 with n1 | n1
        · exfalso
          have hm' : (k', i') ∈ r.adv := by rw [g1]; simp [n1]
          obtain ⟨e2, k1, k2⟩ := h6 i' e0 n2
          have : e2.severity = .error := by
            rcases k2 with ⟨_, _, k3⟩ | ⟨k3, _⟩
            · exact k3
            · exact absurd ⟨⟨(k', i'), hm', rfl⟩, n3⟩ k3
          exact g5 (k', i') n1 e2 k1 this
        · rcases List.mem_cons.mp n1 with n1 | n1
          · cases n1; exact .inl rfl
          · right
            have := hinv.sorted
            rw [g1, SMap.Sorted, List.pairwise_append, List.pairwise_cons] at this
            exact this.2.1.1 _ n1
  · right
    have h7 := h7 hc
    refine ⟨?_, ?_⟩
    · intro k e hfe
      obtain ⟨i, n1, n2, n3⟩ := (hff k e).mp hfe
      exact hc ⟨(k, i), n1, e, n2, n3⟩
    · -- the log after the conversion
      have hmap : r'.logs = r.logs.map fun e => if e.severity = .warn then { e with severity := .error } else e := by
        apply List.ext_getElem?
        intro j
        rw [List.getElem?_map]
        cases hj : r.logs[j]? with
        | none => rw [List.getElem?_eq_none_iff] at hj; rw [List.getElem?_eq_none (by omega)]; rfl
        | some e =>
          obtain ⟨e', k1, k2⟩ := h7 j e hj
          obtain ⟨e2, m1, m2, m3, m4⟩ := h2.get hj
          rw [k1] at m1; cases m1
          rw [k1]
          simp only [Option.map_some, Option.some.injEq]
          cases e; cases e'
          simp only at k2 m2 m3 m4
          subst m2 m3 m4
          simp only [k2]
          split <;> simp_all
      have hadv : findAdvError r'.logs r'.adv = .ok none := by
        rcases findAdvError_spec r'.logs r'.adv hb with ⟨g1, _⟩ | ⟨pre, k, i, post, e', g1, g2, g3, _, _⟩
        · exact g1
        · exfalso
          rw [h3] at g1
          obtain ⟨e, m1, m2, m3, m4⟩ := SameButSeverity.get (l := r'.logs) (l' := r.logs) (Eq.symm h2) g2
          have hinfo : e.severity = .info := Classical.not_not.mp fun h => hc ⟨(k, i), by rw [g1]; simp, e, m1, h⟩
          obtain ⟨e2, k1, k2⟩ := h7 i e m1
          rw [g2] at k1; cases k1
          rw [g3, hinfo] at k2; simp at k2
      have hget : r'.getLastFailure = .ok (r'.logs.reverse.find? (fun e => e.severity = .error)) := by
        by_cases hz : r'.logs.length = 0
        · have := List.length_eq_zero_iff.mp hz
          simp [getLastFailure, this]
        · simp only [getLastFailure, hz, if_false, hadv, Outcome.ok_bind]; rfl
      by_cases hex : ∃ e ∈ r.logs, e.severity = .warn
      · left
        -- split at the last warning
        have key : ∀ l : List Event, (∀ e ∈ l, e.severity ≠ .error) → (∃ e ∈ l, e.severity = .warn) →
            ∃ pre e post, l = pre ++ e :: post ∧ e.severity = .warn ∧ (∀ x ∈ post, x.severity ≠ .warn)
              ∧ (l.map fun e => if e.severity = Severity.warn then { e with severity := Severity.error } else e).reverse.find?
                  (fun e => decide (e.severity = Severity.error)) = some { e with severity := .error } := by
          intro l
          induction l using snoc_induction with
          | nil => intro _ h; simp at h
          | snoc l x ih =>
            intro hne hw
            by_cases hx : x.severity = .warn
            · exact ⟨l, x, [], rfl, hx, by simp, by simp [hx]⟩
            · have : ∃ e ∈ l, e.severity = .warn := by
                obtain ⟨e, he, hw⟩ := hw
                rcases List.mem_append.mp he with he | he
                · exact ⟨e, he, hw⟩
                · simp at he; subst he; exact absurd hw hx
              obtain ⟨pre, e, post, g1, g2, g3, g4⟩ := ih (fun e he => hne e (by simp [he])) this
              refine ⟨pre, e, post ++ [x], by rw [g1]; simp, g2, ?_, ?_⟩
              · intro y hy
                rcases List.mem_append.mp hy with hy | hy
                · exact g3 y hy
                · simp at hy; subst hy; exact hx
              · have hxe : x.severity ≠ .error := hne x (by simp)
                rw [← g4]
                simp [hx, hxe]
        obtain ⟨pre, e, post, g1, g2, g3, g4⟩ := key r.logs (fun e he => (hs e he).2) hex
        refine ⟨pre, e, post, g1, ?_, ?_, ?_⟩
        · exact (hs e (by rw [g1]; simp)).1.mpr g2
        · intro x hx hf
          exact g3 x hx ((hs x (by rw [g1]; simp [hx])).1.mp hf)
        · rw [hget, hmap, g4]
      · right
        refine ⟨fun e he hf => hex ⟨e, he, (hs e he).1.mp hf⟩, ?_⟩
        rw [hget, hmap]
        congr 1
        rw [List.find?_eq_none]
        intro x hx
        rw [List.mem_reverse, List.mem_map] at hx
        obtain ⟨e, he, rfl⟩ := hx
        have h8 : e.severity ≠ .warn := fun h => hex ⟨e, he, h⟩
        have h9 := (hs e he).2
        simp [h8, h9]

theorem sampleRegistry_add : Spec.AddHistory sampleRegistry := by
  have h1 := Spec.AddHistory.add (t := .specified) (ref := some b!"a") (info := none) (.empty .linux) rfl
  have h2 := Spec.AddHistory.add (t := .specified) (ref := some b!"b") (info := none) h1 rfl
  have h3 := Spec.AddHistory.add (t := .fileNotFound) (ref := some b!"b") (info := none) h2 rfl
  have h4 := Spec.AddHistory.add (t := .found) (ref := some b!"a") (info := none) h3 rfl
  exact Spec.AddHistory.add (t := .corrupted) (ref := some b!"a") (info := none) h4 rfl

/-- Non-vacuity: licence `a` failed at the furthest stage although `b` failed earlier. -/
example : Spec.FailedFurthest sampleRegistry.logs b!"a" ⟨.warn, .corrupted, b!"a", []⟩ :=
  (failedFurthest_iff sampleRegistry_add _ _).mpr ⟨4, by simp [sampleRegistry], rfl, by simp⟩

end Licensecc
