import Verif.Spec.EventRegistry
/-!
# Properties of the event registry (C30 - C32)
-/
namespace Licensecc
open Registry

theorem progress_eq_stage (t : EventType) : progress t = Spec.stage t := by cases t <;> rfl

/-! ## C30 consistency -/

/-- The invariant of a registry. -/
structure Registry.Inv (r : Registry) : Prop where
  sorted : SMap.Sorted r.adv
  idx : ∀ k i, SMap.find? k r.adv = some i → ∃ e, r.logs[i]? = some e ∧ e.ref = k

theorem getElem?_snoc {α : Type} (l : List α) (a : α) (i : Nat) :
    (l ++ [a])[i]? = if i < l.length then l[i]? else if i = l.length then some a else none := by
  by_cases h : i < l.length
  · rw [if_pos h, List.getElem?_append_left h]
  · rw [if_neg h, List.getElem?_append_right (by omega)]
    by_cases h2 : i = l.length
    · simp [h2]
    · rw [if_neg h2]
      have : i - l.length = (i - l.length - 1) + 1 := by omega
      rw [this]; simp

theorem getElem?_append_some {α : Type} (l l' : List α) (i : Nat) (a : α) (h : l[i]? = some a) : (l ++ l')[i]? = some a := by
  have : i < l.length := by
    rcases Nat.lt_or_ge i l.length with h' | h'
    · exact h'
    · rw [List.getElem?_eq_none h'] at h; simp at h
  rw [List.getElem?_append_left this, h]

theorem maxPath_eq (p : Platform) : p.maxPath = Spec.pathRoom p := by cases p <;> rfl

theorem keyOf_ok {p : Platform} {e : Event} {k : Bytes} : keyOf p e = .ok k ↔ e.ref.length < Spec.pathRoom p ∧ k = e.ref := by
  unfold keyOf
  rw [maxPath_eq]
  by_cases h : e.ref.length < Spec.pathRoom p <;> simp [h, eq_comm]

/-- What `addEvent` does, in one statement. -/
theorem addEvent_cases {r r' : Registry} {t : EventType} {ref info : Option Bytes} (h : r.addEvent t ref info = .ok r') :
    let e := mkEvent r.platform t ref info
    r'.logs = r.logs ++ [e] ∧
    ((∃ s, progress t = some s ∧ r.step < s ∧ e.ref.length < Spec.pathRoom r.platform ∧ r'.step = s ∧ r'.adv = SMap.insert e.ref r.logs.length [])
     ∨ (progress t = some r.step ∧ e.ref.length < Spec.pathRoom r.platform ∧ r'.step = r.step ∧ r'.adv = SMap.insert e.ref r.logs.length r.adv)
     ∨ (∃ s, progress t = some s ∧ s < r.step ∧ r'.step = r.step ∧ r'.adv = r.adv)
     ∨ (progress t = none ∧ e.ref.length < Spec.pathRoom r.platform ∧ r'.step = r.step
        ∧ ((∃ i, SMap.find? e.ref r.adv = some i) ∧ r'.adv = SMap.insert e.ref r.logs.length r.adv
          ∨ SMap.find? e.ref r.adv = none ∧ r'.adv = r.adv))) := by
  simp only
  simp only [addEvent] at h
  split at h
  · rename_i s hs
    by_cases hgt : s > r.step
    · simp only [hgt, if_true] at h
      obtain ⟨k, hk, h⟩ := Outcome.bind_eq_ok.mp h
      obtain ⟨hlen, rfl⟩ := keyOf_ok.mp hk
      simp at h; subst h
      exact ⟨rfl, .inl ⟨s, hs, hgt, hlen, rfl, rfl⟩⟩
    · simp only [hgt, if_false] at h
      by_cases heq : s = r.step
      · simp only [heq, if_true] at h
        obtain ⟨k, hk, h⟩ := Outcome.bind_eq_ok.mp h
        obtain ⟨hlen, rfl⟩ := keyOf_ok.mp hk
        simp at h; subst h
        exact ⟨rfl, .inr (.inl ⟨by rw [hs, heq], hlen, rfl, rfl⟩)⟩
      · simp only [heq, if_false] at h
        simp at h; subst h
        exact ⟨rfl, .inr (.inr (.inl ⟨s, hs, by omega, rfl, rfl⟩))⟩
  · rename_i hs
    obtain ⟨k, hk, h⟩ := Outcome.bind_eq_ok.mp h
    obtain ⟨hlen, rfl⟩ := keyOf_ok.mp hk
    split at h
    · rename_i i hi
      simp at h; subst h
      exact ⟨rfl, .inr (.inr (.inr ⟨hs, hlen, rfl, .inl ⟨⟨i, hi⟩, rfl⟩⟩))⟩
    · rename_i hi
      simp at h; subst h
      exact ⟨rfl, .inr (.inr (.inr ⟨hs, hlen, rfl, .inr ⟨hi, rfl⟩⟩))⟩

theorem addEvent_platform {r r' : Registry} {t : EventType} {ref info : Option Bytes} (h : r.addEvent t ref info = .ok r') :
    r'.platform = r.platform := by
  simp only [addEvent] at h
  split at h
  · split at h
    all_goals split at h
    all_goals first
      | (obtain ⟨k, _, h⟩ := Outcome.bind_eq_ok.mp h
         simp at h; subst h; rfl)
      | (simp at h; subst h; rfl)
  · obtain ⟨k, _, h⟩ := Outcome.bind_eq_ok.mp h
    split at h
    all_goals (simp at h; subst h; rfl)

theorem inv_insert {logs : List Event} {adv : SMap Nat} {e : Event} (hs : SMap.Sorted adv)
    (hi : ∀ k i, SMap.find? k adv = some i → ∃ e, logs[i]? = some e ∧ e.ref = k) :
    SMap.Sorted (SMap.insert e.ref logs.length adv) ∧
    ∀ k i, SMap.find? k (SMap.insert e.ref logs.length adv) = some i → ∃ e', (logs ++ [e])[i]? = some e' ∧ e'.ref = k := by
  refine ⟨SMap.sorted_insert hs, ?_⟩
  intro k i h
  rw [SMap.find_insert] at h
  split at h
  · rename_i hk; simp at h; subst h; exact ⟨e, by simp, hk.symm⟩
  · obtain ⟨e', h1, h2⟩ := hi k i h
    exact ⟨e', getElem?_append_some _ _ _ _ h1, h2⟩

theorem inv_add {r r' : Registry} {t : EventType} {ref info : Option Bytes} (hr : r.Inv) (h : r.addEvent t ref info = .ok r') :
    r'.Inv := by
  obtain ⟨hl, hc⟩ := addEvent_cases h
  have keep : ∀ k i, SMap.find? k r.adv = some i → ∃ e, r'.logs[i]? = some e ∧ e.ref = k := by
    intro k i hf
    obtain ⟨e, h1, h2⟩ := hr.idx k i hf
    exact ⟨e, by rw [hl]; exact getElem?_append_some _ _ _ _ h1, h2⟩
  rcases hc with ⟨s, _, _, _, _, ha⟩ | ⟨_, _, _, ha⟩ | ⟨_, _, _, _, ha⟩ | ⟨_, _, _, ⟨_, ha⟩ | ⟨_, ha⟩⟩
  · obtain ⟨h1, h2⟩ := inv_insert (logs := r.logs) (e := mkEvent r.platform t ref info) (SMap.sorted_nil (α := Nat)) (by simp [SMap.find?])
    exact ⟨by rw [ha]; exact h1, by rw [ha, hl]; exact h2⟩
  · obtain ⟨h1, h2⟩ := inv_insert (e := mkEvent r.platform t ref info) hr.sorted hr.idx
    exact ⟨by rw [ha]; exact h1, by rw [ha, hl]; exact h2⟩
  · exact ⟨by rw [ha]; exact hr.sorted, by rw [ha]; exact keep⟩
  · obtain ⟨h1, h2⟩ := inv_insert (e := mkEvent r.platform t ref info) hr.sorted hr.idx
    exact ⟨by rw [ha]; exact h1, by rw [ha, hl]; exact h2⟩
  · exact ⟨by rw [ha]; exact hr.sorted, by rw [ha]; exact keep⟩

/-- Logs that differ in severities only. -/
def SameButSeverity (l l' : List Event) : Prop :=
  l.map (fun e => (e.type, e.ref, e.info)) = l'.map (fun e => (e.type, e.ref, e.info))

theorem SameButSeverity.refl (l : List Event) : SameButSeverity l l := rfl

theorem SameButSeverity.get {l l' : List Event} (h : SameButSeverity l l') {i : Nat} {e : Event} (he : l[i]? = some e) :
    ∃ e', l'[i]? = some e' ∧ e'.type = e.type ∧ e'.ref = e.ref ∧ e'.info = e.info := by
  have : (l.map (fun e => (e.type, e.ref, e.info)))[i]? = (l'.map (fun e => (e.type, e.ref, e.info)))[i]? := by rw [h]
  rw [List.getElem?_map, List.getElem?_map, he] at this
  cases hx : l'[i]? with
  | none => rw [hx] at this; simp at this
  | some e' =>
    rw [hx] at this
    simp at this
    exact ⟨e', rfl, this.1.symm, this.2.1.symm, this.2.2.symm⟩

theorem SameButSeverity.set {l : List Event} {i : Nat} {e : Event} (h : l[i]? = some e) (s : Severity) :
    SameButSeverity l (l.set i { e with severity := s }) := by
  simp only [SameButSeverity, List.map_set]
  refine (List.ext_getElem? fun j => ?_)
  rw [List.getElem?_set]
  split
  · rename_i hj; subst hj
    split
    · simp [h]
    · rename_i hj
      have : i < l.length := by
        rcases Nat.lt_or_ge i l.length with h' | h'
        · exact h'
        · rw [List.getElem?_eq_none h'] at h; simp at h
      simp at hj; omega
  · rfl

/-- Effect of the first loop on event number `j`: raised to error severity if some index points to it. -/
def Raised (adv : SMap Nat) (j : Nat) (e e' : Event) : Prop :=
  ((∃ p ∈ adv, p.2 = j) ∧ e.severity ≠ .info ∧ e'.severity = .error)
  ∨ (¬ ((∃ p ∈ adv, p.2 = j) ∧ e.severity ≠ .info) ∧ e'.severity = e.severity)

theorem warnAdv_spec (adv : SMap Nat) : ∀ (logs : List Event) (found : Bool),
    (∀ p ∈ adv, ∃ e, logs[p.2]? = some e) →
    ∃ logs' f, warnAdv logs adv found = .ok (logs', f) ∧ SameButSeverity logs logs'
      ∧ (∀ j e, logs[j]? = some e → ∃ e', logs'[j]? = some e' ∧ Raised adv j e e')
      ∧ (f = true ↔ found = true ∨ ∃ p ∈ adv, ∃ e, logs[p.2]? = some e ∧ e.severity ≠ .info) := by
  induction adv with
  | nil =>
    intro logs found _
    exact ⟨logs, found, rfl, .refl _, fun j e h => ⟨e, h, by simp [Raised]⟩, by simp⟩
  | cons p adv ih =>
    intro logs found hb
    obtain ⟨k, i⟩ := p
    obtain ⟨e, he⟩ := hb (k, i) (by simp)
    dsimp only at he
    by_cases hsev : e.severity = .warn ∨ e.severity = .error
    · have hne : e.severity ≠ .info := by rcases hsev with h | h <;> simp [h]
      have hset := SameButSeverity.set he .error
      obtain ⟨logs', f, h1, h2, h3, h4⟩ := ih (logs.set i { e with severity := .error }) true (by
        intro p hp
        obtain ⟨e', he'⟩ := hb p (by simp [hp])
        obtain ⟨e'', h, _⟩ := hset.get he'
        exact ⟨e'', h⟩)
      refine ⟨logs', f, ?_, ?_, ?_, ?_⟩
      · simp only [warnAdv, he, hsev, if_true]; exact h1
      · exact Eq.trans hset h2
      · intro j e0 hj
        by_cases hij : i = j
        · subst hij
          rw [he] at hj; cases hj
          have hset' : (logs.set i { e with severity := Severity.error })[i]? = some { e with severity := .error } := by
            rw [List.getElem?_set_self]
            rcases Nat.lt_or_ge i logs.length with h' | h'
            · exact h'
            · rw [List.getElem?_eq_none h'] at he; simp at he
          obtain ⟨e', g1, g2⟩ := h3 i _ hset'
          refine ⟨e', g1, ?_⟩
          left
          refine ⟨⟨(k, i), by simp, rfl⟩, hne, ?_⟩
          rcases g2 with ⟨_, _, h⟩ | ⟨_, h⟩ <;> exact h
        · have hset' : (logs.set i { e with severity := Severity.error })[j]? = some e0 := by
            rw [List.getElem?_set_ne hij]; exact hj
          obtain ⟨e', g1, g2⟩ := h3 j _ hset'
          refine ⟨e', g1, ?_⟩
          have hiff : (∃ p ∈ (k, i) :: adv, p.2 = j) ↔ ∃ p ∈ adv, p.2 = j := by simp [hij]
          simpa only [Raised, hiff] using g2
      · rw [h4]
        simp only [true_or, true_iff]
        right
        exact ⟨(k, i), by simp, e, he, hne⟩
    · have hinfo : e.severity = .info := by
        cases h : e.severity <;> simp [h] at hsev ⊢
      obtain ⟨logs', f, h1, h2, h3, h4⟩ := ih logs found (fun p hp => hb p (by simp [hp]))
      refine ⟨logs', f, ?_, h2, ?_, ?_⟩
      · simp only [warnAdv, he, hsev, if_false]; exact h1
      · intro j e0 hj
        obtain ⟨e', g1, g2⟩ := h3 j e0 hj
        refine ⟨e', g1, ?_⟩
        by_cases hij : i = j
        · subst hij; rw [he] at hj; cases hj
          right
          refine ⟨by simp [hinfo], ?_⟩
          rcases g2 with ⟨_, h, _⟩ | ⟨_, h⟩
          · exact absurd hinfo h
          · exact h
        · have hiff : (∃ p ∈ (k, i) :: adv, p.2 = j) ↔ ∃ p ∈ adv, p.2 = j := by simp [hij]
          simpa only [Raised, hiff] using g2
      · rw [h4]
        constructor
        · rintro (h | ⟨p, hp, e', h⟩)
          · exact .inl h
          · exact .inr ⟨p, by simp [hp], e', h⟩
        · rintro (h | ⟨p, hp, e', h⟩)
          · exact .inl h
          · rcases List.mem_cons.mp hp with rfl | hp
            · dsimp only at h; rw [he] at h; obtain ⟨h', h''⟩ := h; cases h'; exact absurd hinfo h''
            · exact .inr ⟨p, hp, e', h⟩

theorem Registry.Inv.bound {r : Registry} (hr : r.Inv) : ∀ p ∈ r.adv, ∃ e, r.logs[p.2]? = some e ∧ e.ref = p.1 := by
  rintro ⟨k, i⟩ hp
  exact hr.idx k i (SMap.find_of_mem hr.sorted hp)

/-- Everything about `turnWarningsIntoErrors` on a consistent registry. -/
theorem turnWarnings_platform {r r' : Registry} {b : Bool} (h : r.turnWarningsIntoErrors = .ok (r', b)) : r'.platform = r.platform := by
  unfold turnWarningsIntoErrors at h
  obtain ⟨⟨logs, f⟩, _, h⟩ := Outcome.bind_eq_ok.mp h
  dsimp only at h
  split at h
  all_goals (simp at h; rw [← h.1])

theorem turnWarnings_spec {r : Registry} (hr : r.Inv) : ∃ r' f, r.turnWarningsIntoErrors = .ok (r', f)
    ∧ SameButSeverity r.logs r'.logs ∧ r'.adv = r.adv ∧ r'.step = r.step
    ∧ (f = true ↔ (∃ p ∈ r.adv, ∃ e, r.logs[p.2]? = some e ∧ e.severity ≠ .info) ∨ ∃ e ∈ r.logs, e.severity = .warn)
    ∧ ((∃ p ∈ r.adv, ∃ e, r.logs[p.2]? = some e ∧ e.severity ≠ .info) →
        ∀ j e, r.logs[j]? = some e → ∃ e', r'.logs[j]? = some e' ∧ Raised r.adv j e e')
    ∧ ((¬ ∃ p ∈ r.adv, ∃ e, r.logs[p.2]? = some e ∧ e.severity ≠ .info) →
        ∀ (j : Nat) (e : Event), r.logs[j]? = some e → ∃ e', r'.logs[j]? = some e' ∧
          e'.severity = if e.severity = .warn then Severity.error else e.severity) := by
  obtain ⟨logs', f, h1, h2, h3, h4⟩ := warnAdv_spec r.adv r.logs false (fun p hp => by
    obtain ⟨e, he, _⟩ := hr.bound p hp; exact ⟨e, he⟩)
  simp only [Bool.false_eq_true, false_or] at h4
  by_cases hf : f = true
  · refine ⟨{ r with logs := logs' }, true, ?_, h2, rfl, rfl, ?_, ?_, ?_⟩
    · simp [turnWarningsIntoErrors, h1, hf]
    · simp only [true_iff]; exact .inl (h4.mp hf)
    · intro _ j e hj; exact h3 j e hj
    · intro hn; exact absurd (h4.mp hf) hn
  · have hno := fun h => hf (h4.mpr h)
    have hsame : ∀ (j : Nat) (e : Event), r.logs[j]? = some e → logs'[j]? = some e := by
      intro j e hj
      obtain ⟨e', g1, g2⟩ := h3 j e hj
      obtain ⟨e2, k1, k2, k3, k4⟩ := h2.get hj
      rw [g1] at k1; cases k1
      have : e'.severity = e.severity := by
        rcases g2 with ⟨⟨p, hp, rfl⟩, hsev, _⟩ | ⟨_, h⟩
        · exact absurd ⟨p, hp, e, hj, hsev⟩ hno
        · exact h
      rw [g1]
      congr 1
      cases e; cases e'; simp_all
    have hll : logs' = r.logs := by
      have hlen : logs'.length = r.logs.length := by
        have := congrArg List.length h2; simpa using this.symm
      apply List.ext_getElem?
      intro j
      cases hj : r.logs[j]? with
      | none =>
        rw [List.getElem?_eq_none_iff] at hj ⊢; omega
      | some e => rw [hsame j e hj]
    subst hll
    have hff : f = false := by simpa using hf
    refine ⟨{ r with logs := r.logs.map fun e => if e.severity = .warn then { e with severity := .error } else e },
      r.logs.any fun e => e.severity = .warn, ?_, ?_, rfl, rfl, ?_, ?_, ?_⟩
    · simp only [turnWarningsIntoErrors, h1, Outcome.ok_bind, hff, Bool.false_eq_true, if_false]; rfl
    · show SameButSeverity _ (List.map _ _)
      unfold SameButSeverity
      rw [List.map_map]
      apply List.map_congr_left
      intro e _
      simp only [Function.comp]
      split <;> rfl
    · rw [List.any_eq_true]
      simp only [decide_eq_true_eq]
      constructor
      · exact .inr
      · rintro (h | h)
        · exact absurd h hno
        · exact h
    · intro h; exact absurd h hno
    · intro _ j e hj
      refine ⟨_, by rw [List.getElem?_map, hj]; rfl, ?_⟩
      dsimp only
      split <;> rfl

theorem inv_severity {r r' : Registry} (hr : r.Inv) (hs : SameButSeverity r.logs r'.logs) (ha : r'.adv = r.adv) : r'.Inv := by
  refine ⟨by rw [ha]; exact hr.sorted, ?_⟩
  intro k i h
  rw [ha] at h
  obtain ⟨e, h1, h2⟩ := hr.idx k i h
  obtain ⟨e', g1, _, g2, _⟩ := hs.get h1
  exact ⟨e', g1, by rw [g2, h2]⟩

theorem turnErrors_same (r : Registry) : SameButSeverity r.logs r.turnErrorsIntoWarnings.1.logs := by
  unfold SameButSeverity
  simp only [turnErrorsIntoWarnings]
  rw [List.map_map]
  apply List.map_congr_left
  intro e _
  simp only [Function.comp]
  split <;> rfl

theorem inv_history {l : List EventType} {r : Registry} (h : Spec.History l r) : r.Inv := by
  induction h with
  | empty => exact ⟨SMap.sorted_nil, by simp [Registry.empty, SMap.find?]⟩
  | add _ h ih => exact inv_add ih h
  | append _ _ ih _ =>
    refine ⟨ih.sorted, fun k i h => ?_⟩
    obtain ⟨e, h1, h2⟩ := ih.idx k i h
    exact ⟨e, getElem?_append_some _ _ _ _ h1, h2⟩
  | push e _ ih =>
    refine ⟨ih.sorted, fun k i h => ?_⟩
    obtain ⟨e, h1, h2⟩ := ih.idx k i h
    exact ⟨e, getElem?_append_some _ _ _ _ h1, h2⟩
  | toErrors _ h ih =>
    obtain ⟨r', f, h1, h2, h3, _⟩ := turnWarnings_spec ih
    rw [h1] at h; cases h
    exact inv_severity ih h2 h3
  | toWarnings _ ih => exact inv_severity ih (turnErrors_same _) rfl

/-- **C30**: after any sequence of operations, the index remembered for a licence points into the log, to an event of
    that licence. -/
theorem C30_indices_valid {l : List EventType} {r : Registry} (h : Spec.History l r) (k : Bytes) (i : Nat)
    (hk : (k, i) ∈ r.adv) : ∃ e, r.logs[i]? = some e ∧ e.ref = k :=
  (inv_history h).bound (k, i) hk

/-- **C30**: after any sequence of operations the current step is the furthest stage among the events added, or -1 if
    none of them was a progress event. -/
theorem C30_step_is_maximum {l : List EventType} {r : Registry} (h : Spec.History l r) :
    ((∃ t ∈ l, Spec.stage t = some r.step) ∨ (r.step = -1 ∧ ∀ t ∈ l, Spec.stage t = none))
    ∧ ∀ t ∈ l, ∀ s, Spec.stage t = some s → s ≤ r.step := by
  induction h with
  | empty => simp [Registry.empty]
  | @add l r r' t ref info _ h ih =>
    obtain ⟨ih1, ih2⟩ := ih
    have hneg : ∀ s, progress t = some s → 0 ≤ s := by
      intro s hs; cases t <;> simp [progress] at hs <;> omega
    obtain ⟨_, hc⟩ := addEvent_cases h
    simp only [progress_eq_stage] at hc
    rcases hc with ⟨s, hs, hlt, _, hstep, _⟩ | ⟨hs, _, hstep, _⟩ | ⟨s, hs, hlt, hstep, _⟩ | ⟨hs, _, hstep, _⟩
    · rw [hstep]
      refine ⟨.inl ⟨t, by simp, hs⟩, ?_⟩
      intro t' ht' s' hs'
      rcases List.mem_append.mp ht' with ht' | ht'
      · have := ih2 t' ht' s' hs'; omega
      · simp at ht'; subst ht'; rw [hs] at hs'; cases hs'; omega
    · rw [hstep]
      refine ⟨.inl ⟨t, by simp, hs⟩, ?_⟩
      intro t' ht' s' hs'
      rcases List.mem_append.mp ht' with ht' | ht'
      · exact ih2 t' ht' s' hs'
      · simp at ht'; subst ht'; rw [hs] at hs'; cases hs'; omega
    · rw [hstep]
      refine ⟨?_, ?_⟩
      · rcases ih1 with ⟨t', h1, h2⟩ | ⟨h1, h2⟩
        · exact .inl ⟨t', by simp [h1], h2⟩
        · exfalso; have := hneg s (by rw [progress_eq_stage]; exact hs); omega
      · intro t' ht' s' hs'
        rcases List.mem_append.mp ht' with ht' | ht'
        · exact ih2 t' ht' s' hs'
        · simp at ht'; subst ht'; rw [hs] at hs'; cases hs'; omega
    · rw [hstep]
      refine ⟨?_, ?_⟩
      · rcases ih1 with ⟨t', h1, h2⟩ | ⟨h1, h2⟩
        · exact .inl ⟨t', by simp [h1], h2⟩
        · right
          refine ⟨h1, ?_⟩
          intro t' ht'
          rcases List.mem_append.mp ht' with ht' | ht'
          · exact h2 t' ht'
          · simp at ht'; subst ht'; exact hs
      · intro t' ht' s' hs'
        rcases List.mem_append.mp ht' with ht' | ht'
        · exact ih2 t' ht' s' hs'
        · simp at ht'; subst ht'; rw [hs] at hs'; cases hs'
  | append _ _ ih _ => exact ih
  | push e _ ih => exact ih
  | toErrors hh h ih =>
    obtain ⟨r', f, h1, _, _, h3, _⟩ := turnWarnings_spec (inv_history hh)
    rw [h1] at h; cases h
    rw [h3]; exact ih
  | toWarnings _ ih => exact ih


/-! ## The queries -/

theorem findAdvError_spec (logs : List Event) (adv : SMap Nat) (hb : ∀ p ∈ adv, ∃ e, logs[p.2]? = some e) :
    (findAdvError logs adv = .ok none ∧ ∀ p ∈ adv, ∀ e, logs[p.2]? = some e → e.severity ≠ .error)
    ∨ ∃ pre k i post e, adv = pre ++ (k, i) :: post ∧ logs[i]? = some e ∧ e.severity = .error
        ∧ findAdvError logs adv = .ok (some e)
        ∧ ∀ p ∈ pre, ∀ e, logs[p.2]? = some e → e.severity ≠ .error := by
  induction adv with
  | nil => left; simp [findAdvError]
  | cons p adv ih =>
    obtain ⟨k, i⟩ := p
    obtain ⟨e, he⟩ := hb (k, i) (by simp)
    dsimp only at he
    by_cases hsev : e.severity = .error
    · right
      exact ⟨[], k, i, adv, e, rfl, he, hsev, by simp [findAdvError, he, hsev], by simp⟩
    · have hstep : findAdvError logs ((k, i) :: adv) = findAdvError logs adv := by simp [findAdvError, he, hsev]
      rw [hstep]
      rcases ih (fun p hp => hb p (by simp [hp])) with ⟨h1, h2⟩ | ⟨pre, k', i', post, e', h1, h2, h3, h4, h5⟩
      · left
        refine ⟨h1, ?_⟩
        intro p hp e' he'
        rcases List.mem_cons.mp hp with rfl | hp
        · dsimp only at he'; rw [he] at he'; cases he'; exact hsev
        · exact h2 p hp e' he'
      · right
        refine ⟨(k, i) :: pre, k', i', post, e', by rw [h1]; rfl, h2, h3, h4, ?_⟩
        intro p hp e0 he0
        rcases List.mem_cons.mp hp with rfl | hp
        · dsimp only at he0; rw [he] at he0; cases he0; exact hsev
        · exact h5 p hp e0 he0

/-- `getLastFailure` on a consistent registry. -/
theorem getLastFailure_spec {r : Registry} (hr : r.Inv) :
    ∃ o, r.getLastFailure = .ok o
      ∧ (o = none ↔ ∀ e ∈ r.logs, e.severity ≠ .error)
      ∧ (∀ e, o = some e → e ∈ r.logs ∧ e.severity = .error) := by
  have hb : ∀ p ∈ r.adv, ∃ e, r.logs[p.2]? = some e := fun p hp => by
    obtain ⟨e, he, _⟩ := hr.bound p hp; exact ⟨e, he⟩
  by_cases hz : r.logs.length = 0
  · have hnil : r.logs = [] := List.length_eq_zero_iff.mp hz
    exact ⟨none, by simp [getLastFailure, hnil], by simp [hnil], by simp⟩
  · rcases findAdvError_spec r.logs r.adv hb with ⟨h1, _⟩ | ⟨pre, k, i, post, e, h1, h2, h3, h4, _⟩
    · refine ⟨r.logs.reverse.find? (fun e => e.severity = .error), ?_, ?_, ?_⟩
      · simp [getLastFailure, hz, h1]
      · rw [List.find?_eq_none]; simp
      · intro e he
        exact ⟨by simpa using List.mem_of_find?_eq_some he, by simpa using List.find?_some he⟩
    · refine ⟨some e, ?_, ?_, ?_⟩
      · simp [getLastFailure, hz, h4]
      · simp only [reduceCtorEq, false_iff]
        intro h; exact h e (List.mem_of_getElem? h2) h3
      · intro e' he'; cases he'; exact ⟨List.mem_of_getElem? h2, h3⟩

/-- **C30**: after any sequence of operations the queries read only inside the log (no undefined behaviour) and do
    not throw. -/
theorem C30_queries_defined {l : List EventType} {r : Registry} (h : Spec.History l r) :
    (∃ o, r.getLastFailure = .ok o) ∧ (∃ b, r.isGood = .ok b) ∧ (∃ x, r.turnWarningsIntoErrors = .ok x) := by
  obtain ⟨o, h1, _⟩ := getLastFailure_spec (inv_history h)
  obtain ⟨r', f, h2, _⟩ := turnWarnings_spec (inv_history h)
  exact ⟨⟨o, h1⟩, ⟨o.isNone, by simp [isGood, h1]⟩, ⟨_, h2⟩⟩

/-- A concrete history: one licence found, another one missing, then a signature failure. -/
def sampleRegistry : Registry :=
  ⟨[⟨.info, .specified, b!"a", []⟩, ⟨.info, .specified, b!"b", []⟩, ⟨.warn, .fileNotFound, b!"b", []⟩,
    ⟨.info, .found, b!"a", []⟩, ⟨.warn, .corrupted, b!"a", []⟩], [(b!"a", 4)], 1, .linux⟩

theorem sampleRegistry_history : Spec.History [.specified, .specified, .fileNotFound, .found, .corrupted] sampleRegistry := by
  have h0 := Spec.History.empty .linux
  have h1 := Spec.History.add (t := .specified) (ref := some b!"a") (info := none) h0 rfl
  have h2 := Spec.History.add (t := .specified) (ref := some b!"b") (info := none) h1 rfl
  have h3 := Spec.History.add (t := .fileNotFound) (ref := some b!"b") (info := none) h2 rfl
  have h4 := Spec.History.add (t := .found) (ref := some b!"a") (info := none) h3 rfl
  exact Spec.History.add (t := .corrupted) (ref := some b!"a") (info := none) h4 rfl

/-- **C30**: adding an event is undefined exactly when the reference fills the array of MAX_PATH bytes (its terminator is then
    missing) and the reference is needed as a key: for failures and for progress that is not behind the current step. -/
theorem C30_add_ub_iff (r : Registry) (t : EventType) (ref info : Option Bytes) :
    (r.addEvent t ref info = .ub ↔ (∃ b, ref = some b ∧ Spec.pathRoom r.platform ≤ (b.takeWhile (· ≠ 0)).length)
        ∧ ∀ s, Spec.stage t = some s → r.step ≤ s)
    ∧ ∀ e, r.addEvent t ref info ≠ .throw e := by
  have hlen : (mkEvent r.platform t ref info).ref.length < Spec.pathRoom r.platform ↔ ¬ ∃ b, ref = some b ∧ Spec.pathRoom r.platform ≤ (b.takeWhile (· ≠ 0)).length := by
    cases ref with
    | none =>
      have : 260 ≤ Spec.pathRoom r.platform := by cases r.platform <;> decide
      simp [mkEvent]; omega
    | some b =>
      simp only [mkEvent, cstr, maxPath_eq, List.length_take, Option.some.injEq, exists_eq_left']
      omega
  have hub : keyOf r.platform (mkEvent r.platform t ref info) = .ub ↔ ∃ b, ref = some b ∧ Spec.pathRoom r.platform ≤ (b.takeWhile (· ≠ 0)).length := by
    unfold keyOf
    rw [maxPath_eq]
    by_cases h : (mkEvent r.platform t ref info).ref.length < Spec.pathRoom r.platform
    · simp only [h, if_true, reduceCtorEq, false_iff]; exact hlen.mp h
    · simp only [h, if_false, true_iff]; exact Classical.not_not.mp (fun hh => h (hlen.mpr hh))
  have hthrow : ∀ e, keyOf r.platform (mkEvent r.platform t ref info) ≠ .throw e := by
    intro e; unfold keyOf; split <;> simp
  rw [← progress_eq_stage]
  simp only [addEvent]
  split
  · rename_i s hs
    simp only [hs, Option.some.injEq, forall_eq']
    by_cases hgt : s > r.step
    · simp only [hgt, if_true, Outcome.bind_eq_ub, hub]
      refine ⟨⟨?_, fun h => .inl h.1⟩, ?_⟩
      · rintro (h | ⟨k, _, h⟩)
        · exact ⟨h, by omega⟩
        · simp at h
      · intro e h
        rcases Outcome.bind_eq_throw.mp h with h | ⟨k, _, h⟩
        · exact hthrow e h
        · simp at h
    · simp only [hgt, if_false]
      by_cases heq : s = r.step
      · simp only [heq, if_true, Outcome.bind_eq_ub, hub]
        refine ⟨⟨?_, fun h => .inl h.1⟩, ?_⟩
        · rintro (h | ⟨k, _, h⟩)
          · exact ⟨h, by omega⟩
          · simp at h
        · intro e h
          rcases Outcome.bind_eq_throw.mp h with h | ⟨k, _, h⟩
          · exact hthrow e h
          · simp at h
      · simp only [heq, if_false, reduceCtorEq, false_iff]
        exact ⟨fun h => by omega, by simp⟩
  · rename_i hs
    simp only [hs, reduceCtorEq, false_implies, implies_true, and_true]
    rw [Outcome.bind_eq_ub, hub]
    refine ⟨⟨?_, .inl⟩, ?_⟩
    · rintro (h | ⟨k, _, h⟩)
      · exact h
      · split at h <;> simp at h
    · intro e h
      rcases Outcome.bind_eq_throw.mp h with h | ⟨k, _, h⟩
      · exact hthrow e h
      · split at h <;> simp at h

/-! ## C31 -/

/-- **C31**: a registry is good exactly when its log holds no event of error severity. -/
theorem C31_good_iff {l : List EventType} {r : Registry} (h : Spec.History l r) :
    ∃ b, r.isGood = .ok b ∧ (b = true ↔ ∀ e ∈ r.logs, e.severity ≠ .error) := by
  obtain ⟨o, h1, h2, _⟩ := getLastFailure_spec (inv_history h)
  refine ⟨o.isNone, by simp [isGood, h1], ?_⟩
  rw [Option.isNone_iff_eq_none, h2]

/-- **C31**: a reported failure is an event of the log, of error severity; nothing is reported iff there is none. -/
theorem C31_failure_is_logged_error {l : List EventType} {r : Registry} (h : Spec.History l r) :
    ∃ o, r.getLastFailure = .ok o ∧ (o = none ↔ ∀ e ∈ r.logs, e.severity ≠ .error)
      ∧ ∀ e, o = some e → e ∈ r.logs ∧ e.severity = .error :=
  getLastFailure_spec (inv_history h)

/-- **C31**: `turnErrorsIntoWarnings` makes any registry good, keeps everything but severities, and answers whether
    there was an error. -/
theorem C31_errors_into_warnings {l : List EventType} {r : Registry} (h : Spec.History l r) :
    r.turnErrorsIntoWarnings.1.isGood = .ok true
    ∧ (r.turnErrorsIntoWarnings.2 = true ↔ ∃ e ∈ r.logs, e.severity = .error)
    ∧ SameButSeverity r.logs r.turnErrorsIntoWarnings.1.logs
    ∧ ∀ (i : Nat) (e : Event), r.logs[i]? = some e → ∃ e' : Event, r.turnErrorsIntoWarnings.1.logs[i]? = some e'
        ∧ e'.severity = (if e.severity = .error then Severity.warn else e.severity) := by
  refine ⟨?_, ?_, turnErrors_same r, ?_⟩
  · obtain ⟨b, h1, h2⟩ := C31_good_iff (Spec.History.toWarnings h)
    rw [h1]
    congr 1
    rw [h2]
    simp only [turnErrorsIntoWarnings, List.mem_map]
    rintro e ⟨e0, _, rfl⟩
    split <;> simp_all
  · simp [turnErrorsIntoWarnings]
  · intro i e he
    refine ⟨if e.severity = .error then { e with severity := .warn } else e, ?_, by split <;> rfl⟩
    simp only [turnErrorsIntoWarnings, List.getElem?_map, he, Option.map_some]

/-- **C31**: `turnWarningsIntoErrors` answers true exactly when there is something to raise (a warning anywhere, or an
    error at the end of a most advanced licence); afterwards the registry is not good, if there was a warning or an
    error at all; only severities change. -/
theorem C31_warnings_into_errors {l : List EventType} {r : Registry} (h : Spec.History l r) :
    ∃ r' f, r.turnWarningsIntoErrors = .ok (r', f)
      ∧ (f = true ↔ (∃ e ∈ r.logs, e.severity = .warn)
          ∨ ∃ k i e, (k, i) ∈ r.adv ∧ r.logs[i]? = some e ∧ e.severity = .error)
      ∧ (r'.isGood = .ok false ↔ ∃ e ∈ r.logs, e.severity ≠ .info)
      ∧ SameButSeverity r.logs r'.logs := by
  obtain ⟨r', f, h1, h2, h3, h4, h5, h6, h7⟩ := turnWarnings_spec (inv_history h)
  refine ⟨r', f, h1, ?_, ?_, h2⟩
  · rw [h5]
    constructor
    · rintro (⟨⟨k, i⟩, hp, e, he, hs⟩ | h)
      · cases hsev : e.severity with
        | info => exact absurd hsev hs
        | warn => exact .inl ⟨e, List.mem_of_getElem? he, hsev⟩
        | error => exact .inr ⟨k, i, e, hp, he, hsev⟩
      · exact .inl h
    · rintro (h | ⟨k, i, e, hp, he, hs⟩)
      · exact .inr h
      · exact .inl ⟨(k, i), hp, e, he, by rw [hs]; simp⟩
  · obtain ⟨b, g1, g2⟩ := C31_good_iff (Spec.History.toErrors h h1)
    rw [g1]
    have : (Outcome.ok b = Outcome.ok false) ↔ ¬ (b = true) := by simp
    rw [this, g2]
    constructor
    · intro hn
      refine Classical.not_not.mp fun hne => hn ?_
      intro e' he' hse'
      obtain ⟨j, hj⟩ := List.mem_iff_getElem?.mp he'
      obtain ⟨e, hje, _⟩ := SameButSeverity.get (l := r'.logs) (l' := r.logs) (Eq.symm h2) hj
      have hinfo : e.severity = .info := by
        refine Classical.not_not.mp fun h => hne ⟨e, List.mem_of_getElem? hje, h⟩
      by_cases hc : ∃ p ∈ r.adv, ∃ e, r.logs[p.2]? = some e ∧ e.severity ≠ .info
      · obtain ⟨e2, k1, k2⟩ := h6 hc j e hje
        rw [hj] at k1; cases k1
        rcases k2 with ⟨_, hh, _⟩ | ⟨_, hh⟩
        · exact hh hinfo
        · rw [hse', hinfo] at hh; simp at hh
      · obtain ⟨e2, k1, k2⟩ := h7 hc j e hje
        rw [hj] at k1; cases k1
        rw [hse', hinfo] at k2; simp at k2
    · rintro ⟨e, he, hs⟩ hall
      obtain ⟨j, hj⟩ := List.mem_iff_getElem?.mp he
      by_cases hc : ∃ p ∈ r.adv, ∃ e, r.logs[p.2]? = some e ∧ e.severity ≠ .info
      · obtain ⟨p, hp, e1, he1, hs1⟩ := hc
        obtain ⟨e2, k1, k2⟩ := h6 ⟨p, hp, e1, he1, hs1⟩ p.2 e1 he1
        rcases k2 with ⟨_, _, hh⟩ | ⟨hh, _⟩
        · exact hall e2 (List.mem_of_getElem? k1) hh
        · exact hh ⟨⟨p, hp, rfl⟩, hs1⟩
      · obtain ⟨e2, k1, k2⟩ := h7 hc j e hj
        apply hall e2 (List.mem_of_getElem? k1)
        rw [k2]
        cases hsev : e.severity with
        | info => exact absurd hsev hs
        | warn => simp
        | error => simp

/-- **C31**: which events are raised: if some most advanced licence ends with a warning or an error, exactly the last
    events of the most advanced licences; otherwise every warning.  Nothing is ever lowered. -/
theorem C31_raised_events {l : List EventType} {r : Registry} (h : Spec.History l r) :
    ∃ r' f, r.turnWarningsIntoErrors = .ok (r', f) ∧ ∀ (i : Nat) (e : Event), r.logs[i]? = some e → ∃ e' : Event, r'.logs[i]? = some e' ∧
      ((∃ k j x, (k, j) ∈ r.adv ∧ r.logs[j]? = some x ∧ x.severity ≠ .info) →
        ((∃ k, (k, i) ∈ r.adv) ∧ e.severity = .warn → e'.severity = .error)
        ∧ (¬ ((∃ k, (k, i) ∈ r.adv) ∧ e.severity = .warn) → e'.severity = e.severity))
      ∧ ((¬ ∃ k j x, (k, j) ∈ r.adv ∧ r.logs[j]? = some x ∧ x.severity ≠ .info) →
        e'.severity = (if e.severity = .warn then Severity.error else e.severity)) := by
  obtain ⟨r', f, h1, h2, h3, h4, h5, h6, h7⟩ := turnWarnings_spec (inv_history h)
  refine ⟨r', f, h1, ?_⟩
  intro i e he
  by_cases hc : ∃ p ∈ r.adv, ∃ e, r.logs[p.2]? = some e ∧ e.severity ≠ .info
  · obtain ⟨e', k1, k2⟩ := h6 hc i e he
    refine ⟨e', k1, fun _ => ?_, fun hn => ?_⟩
    · rcases k2 with ⟨⟨p, hp, rfl⟩, k3, k4⟩ | ⟨k3, k4⟩
      · rw [k4]
        refine ⟨fun _ => rfl, fun hn => ?_⟩
        · cases hs : e.severity with
          | info => exact absurd hs k3
          | warn => exact absurd ⟨⟨p.1, hp⟩, hs⟩ hn
          | error => rfl
      · refine ⟨?_, fun _ => k4⟩
        rintro ⟨⟨k, hk⟩, hs⟩
        exact absurd ⟨⟨(k, i), hk, rfl⟩, by rw [hs]; simp⟩ k3
    · obtain ⟨⟨k, j⟩, hp, x, hx, hs⟩ := hc
      exact absurd ⟨k, j, x, hp, hx, hs⟩ hn
  · obtain ⟨e', k1, k2⟩ := h7 hc i e he
    refine ⟨e', k1, fun hn => ?_, fun _ => k2⟩
    obtain ⟨k, j, x, hp, hx, hs⟩ := hn
    exact absurd ⟨(k, j), hp, x, hx, hs⟩ hc

example : ∃ r', sampleRegistry.turnWarningsIntoErrors = .ok (r', true) ∧ r'.getLastFailure
    = .ok (some ⟨.error, .corrupted, b!"a", []⟩) := ⟨_, rfl, rfl⟩

/-- **C14** (registry part): the array receives the last `min n (number of events)` events in order, the other
    elements are left alone. -/
theorem C14_export_tail (r : Registry) (dst : List Event) (n : Nat) (h : n ≤ dst.length) :
    ∃ out pre, r.exportLastEvents dst n = .ok out ∧ out.length = dst.length
      ∧ r.logs = pre ++ out.take (min n r.logs.length)
      ∧ out.drop (min n r.logs.length) = dst.drop (min n r.logs.length) := by
  have hm : min n r.logs.length ≤ dst.length := by omega
  have hl : (r.logs.drop (r.logs.length - min n r.logs.length)).length = min n r.logs.length := by
    rw [List.length_drop]; omega
  refine ⟨_, r.logs.take (r.logs.length - min n r.logs.length), by simp only [exportLastEvents, hm, if_true]; rfl, ?_, ?_, ?_⟩
  · rw [List.length_append, hl, List.length_drop]; omega
  · rw [List.take_append_of_le_length (by omega), List.take_of_length_le (l := r.logs.drop _) (by omega), List.take_append_drop]
  · rw [List.drop_append_of_le_length (by omega), List.drop_of_length_le (l := r.logs.drop _) (by omega), List.nil_append]

end Licensecc
