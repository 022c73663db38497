import Verif.Spec.Threads
/-!
# Lemmas about programs with shared memory
-/
namespace Licensecc.Threads

/-- Outcome of a program that runs alone. -/
def Prog.result {α : Type} : Prog α → Shared → Outcome α
  | .ret o, _ => o
  | .read c k, s => (k (s c)).result s
  | .write c v p, s => p.result (s.set c v)

/-- Shared memory after a program that runs alone. -/
def Prog.final {α : Type} : Prog α → Shared → Shared
  | .ret _, s => s
  | .read c k, s => (k (s c)).final s
  | .write c v p, s => p.final (s.set c v)

/-- Accesses of a program that runs alone. -/
def Prog.trace {α : Type} : Prog α → Shared → List Access
  | .ret _, _ => []
  | .read c k, s => ⟨c, false⟩ :: (k (s c)).trace s
  | .write c v p, s => ⟨c, true⟩ :: p.trace (s.set c v)

theorem Shared.set_same (s : Shared) (c : Cell) (v : Option Bytes) : s.set c v c = v := by simp [Shared.set]
theorem Shared.set_other (s : Shared) {c d : Cell} (v : Option Bytes) (h : d ≠ c) : s.set c v d = s d := by simp [Shared.set, h]

/-- A program sees only the cells it accesses. -/
theorem same_run {α : Type} (p : Prog α) : ∀ (s s' : Shared), (∀ a ∈ p.trace s, s' a.cell = s a.cell) →
    p.trace s' = p.trace s ∧ p.result s' = p.result s := by
  induction p with
  | ret o => intro s s' _; exact ⟨rfl, rfl⟩
  | read c k ih =>
    intro s s' h
    have hc : s' c = s c := h ⟨c, false⟩ (by simp [Prog.trace])
    have := ih (s c) s s' (fun a ha => h a (by simp [Prog.trace, ha]))
    simp only [Prog.trace, Prog.result, hc]
    exact ⟨by rw [this.1], this.2⟩
  | write c v p ih =>
    intro s s' h
    have := ih (s.set c v) (s'.set c v) (fun a ha => by
      by_cases hc : a.cell = c
      · rw [hc, Shared.set_same, Shared.set_same]
      · rw [Shared.set_other _ _ hc, Shared.set_other _ _ hc]
        exact h a (by simp [Prog.trace, ha]))
    simp only [Prog.trace, Prog.result]
    exact ⟨by rw [this.1], this.2⟩

theorem next_mem {α : Type} {p : Prog α} {a : Access} (s : Shared) (h : p.next = some a) : a ∈ p.trace s := by
  cases p with
  | ret => simp [Prog.next] at h
  | read c k => simp [Prog.next] at h; simp [Prog.trace, h]
  | write c v p => simp [Prog.next] at h; simp [Prog.trace, h]

/-- No two threads, run alone, make conflicting accesses. -/
def Disjoint {α : Type} (s : Shared) (ts : Nat → Prog α) : Prop :=
  ∀ i j, i ≠ j → ∀ a ∈ (ts i).trace s, ∀ b ∈ (ts j).trace s, ¬ a.Conflicts b

theorem disjoint_step {α : Type} {s s' : Shared} {ts ts' : Nat → Prog α} (h : Step s ts s' ts') (hd : Disjoint s ts) :
    Disjoint s' ts' ∧ ∀ i, (ts' i).result s' = (ts i).result s := by
  have key : (∀ i, (ts' i).result s' = (ts i).result s) ∧ ∀ i, ∀ a ∈ (ts' i).trace s', a ∈ (ts i).trace s := by
    cases h with
    | @read c k i h =>
      refine ⟨fun j => ?_, fun j a ha => ?_⟩
      · by_cases hj : j = i
        · subst hj; simp [h, Prog.result]
        · simp [hj]
      · by_cases hj : j = i
        · subst hj; simp at ha; rw [h]; simp [Prog.trace, ha]
        · simpa [hj] using ha
    | @write c v p i h =>
      have hother : ∀ j, j ≠ i → (ts j).trace (s.set c v) = (ts j).trace s ∧ (ts j).result (s.set c v) = (ts j).result s := by
        intro j hj
        refine same_run _ _ _ fun a ha => Shared.set_other _ _ fun hc => ?_
        exact hd i j (Ne.symm hj) ⟨c, true⟩ (by rw [h]; simp [Prog.trace]) a ha ⟨hc.symm, .inl rfl⟩
      refine ⟨fun j => ?_, fun j a ha => ?_⟩
      · by_cases hj : j = i
        · subst hj; simp [h, Prog.result]
        · simp only [hj, if_false]; exact (hother j hj).2
      · by_cases hj : j = i
        · subst hj; simp at ha; rw [h]; simp [Prog.trace, ha]
        · simp only [hj, if_false] at ha; rwa [(hother j hj).1] at ha
  exact ⟨fun i j hij a ha b hb => hd i j hij a (key.2 i a ha) b (key.2 j b hb), key.1⟩

theorem disjoint_steps {α : Type} {s s' : Shared} {ts ts' : Nat → Prog α} (h : Steps s ts s' ts') (hd : Disjoint s ts) :
    Disjoint s' ts' ∧ ∀ i, (ts' i).result s' = (ts i).result s := by
  induction h with
  | refl => exact ⟨hd, fun _ => rfl⟩
  | step _ h ih =>
    obtain ⟨h1, h2⟩ := disjoint_step h (ih hd).1
    exact ⟨h1, fun i => by rw [h2, (ih hd).2]⟩

theorem Steps.trans {α : Type} {s s1 s2 : Shared} {ts ts1 ts2 : Nat → Prog α} (h : Steps s ts s1 ts1) (h' : Steps s1 ts1 s2 ts2) :
    Steps s ts s2 ts2 := by
  induction h' with
  | refl => exact h
  | step _ h1 ih => exact .step (ih h) h1

/-- One thread runs alone up to its first access of a kind. -/
theorem run_to {α : Type} (P : Access → Prop) (i : Nat) : ∀ (p : Prog α) (s : Shared) (ts : Nat → Prog α), ts i = p →
    (∃ a ∈ p.trace s, P a) → ∃ s' p' a, Steps s ts s' (fun j => if j = i then p' else ts j) ∧ p'.next = some a ∧ P a
      ∧ ∀ c, s' c ≠ s c → ¬ P ⟨c, true⟩ := by
  intro p
  induction p with
  | ret => intro s ts _ h; simp [Prog.trace] at h
  | read c k ih =>
    intro s ts hi h
    by_cases hp : P ⟨c, false⟩
    · refine ⟨s, .read c k, _, ?_, rfl, hp, fun c h => absurd rfl h⟩
      have : (fun j => if j = i then Prog.read c k else ts j) = ts := by
        funext j; by_cases hj : j = i
        · subst hj; simp [hi]
        · simp [hj]
      rw [this]; exact .refl
    · obtain ⟨s', p', a, h1, h2, h3, h4⟩ := ih (s c) s (fun j => if j = i then k (s c) else ts j) (by simp) (by
        obtain ⟨a, ha, hpa⟩ := h
        simp only [Prog.trace, List.mem_cons] at ha
        rcases ha with rfl | ha
        · exact absurd hpa hp
        · exact ⟨a, ha, hpa⟩)
      refine ⟨s', p', a, ?_, h2, h3, h4⟩
      have : (fun j => if j = i then p' else if j = i then k (s c) else ts j) = fun j => if j = i then p' else ts j := by
        funext j; by_cases hj : j = i <;> simp [hj]
      rw [this] at h1
      exact Steps.trans (.step .refl (.read i hi)) h1
  | write c v p ih =>
    intro s ts hi h
    by_cases hp : P ⟨c, true⟩
    · refine ⟨s, .write c v p, _, ?_, rfl, hp, fun c h => absurd rfl h⟩
      have : (fun j => if j = i then Prog.write c v p else ts j) = ts := by
        funext j; by_cases hj : j = i
        · subst hj; simp [hi]
        · simp [hj]
      rw [this]; exact .refl
    · obtain ⟨s', p', a, h1, h2, h3, h4⟩ := ih (s.set c v) (fun j => if j = i then p else ts j) (by simp) (by
        obtain ⟨a, ha, hpa⟩ := h
        simp only [Prog.trace, List.mem_cons] at ha
        rcases ha with rfl | ha
        · exact absurd hpa hp
        · exact ⟨a, ha, hpa⟩)
      refine ⟨s', p', a, ?_, h2, h3, fun d hd => ?_⟩
      · have : (fun j => if j = i then p' else if j = i then p else ts j) = fun j => if j = i then p' else ts j := by
          funext j; by_cases hj : j = i <;> simp [hj]
        rw [this] at h1
        exact Steps.trans (.step .refl (.write i hi)) h1
      · by_cases hdc : d = c
        · subst hdc; exact hp
        · exact h4 d (by rwa [Shared.set_other _ _ hdc])

/-- A data race can happen exactly if two threads, each run alone, make conflicting accesses. -/
theorem canRace_iff {α : Type} (s : Shared) (ts : Nat → Prog α) : CanRace s ts ↔ ¬ Disjoint s ts := by
  constructor
  · rintro ⟨s', ts', h, i, j, a, b, hij, h1, h2, h3⟩ hd
    exact (disjoint_steps h hd).1 i j hij a (next_mem s' h1) b (next_mem s' h2) h3
  · intro hn
    unfold Disjoint at hn
    simp only [Classical.not_forall, Classical.not_not] at hn
    obtain ⟨i, j, hij, a, ha, b, hb, hc⟩ := hn
    obtain ⟨s1, p1, a1, h1, h2, ⟨b1, hb1, hc1⟩, h4⟩ := run_to (fun a => ∃ b ∈ (ts j).trace s, a.Conflicts b) i (ts i) s ts rfl
      ⟨a, ha, b, hb, hc⟩
    have hsame := (same_run (ts j) s s1 (fun x hx => Classical.byContradiction fun hne =>
      h4 x.cell hne ⟨x, hx, rfl, .inl rfl⟩)).1
    obtain ⟨s2, p2, b2, g1, g2, g3, _⟩ := run_to (fun b => a1.Conflicts b) j (ts j) s1 (fun x => if x = i then p1 else ts x)
      (by simp [Ne.symm hij]) ⟨b1, by rw [hsame]; exact hb1, hc1⟩
    exact ⟨s2, _, h1.trans g1, i, j, a1, b2, hij, by simp [hij, h2], by simp [g2], g3⟩

/-- A thread can always run to its end. -/
theorem run_on {α : Type} (i : Nat) : ∀ (p : Prog α) (s : Shared) (ts : Nat → Prog α), ts i = p →
    Steps s ts (p.final s) (fun j => if j = i then .ret (p.result s) else ts j) := by
  intro p
  induction p with
  | ret o =>
    intro s ts h
    have : (fun j => if j = i then Prog.ret o else ts j) = ts := by
      funext j; by_cases hj : j = i
      · subst hj; simp [h]
      · simp [hj]
    simp only [Prog.final, Prog.result]
    rw [this]; exact .refl
  | read c k ih =>
    intro s ts h
    have h1 := ih (s c) s (fun j => if j = i then k (s c) else ts j) (by simp)
    have : (fun j => if j = i then Prog.ret ((k (s c)).result s) else if j = i then k (s c) else ts j)
        = fun j => if j = i then Prog.ret ((k (s c)).result s) else ts j := by
      funext j; by_cases hj : j = i <;> simp [hj]
    rw [this] at h1
    exact Steps.trans (.step .refl (.read i h)) h1
  | write c v p ih =>
    intro s ts h
    have h1 := ih (s.set c v) (fun j => if j = i then p else ts j) (by simp)
    have : (fun j => if j = i then Prog.ret (p.result (s.set c v)) else if j = i then p else ts j)
        = fun j => if j = i then Prog.ret (p.result (s.set c v)) else ts j := by
      funext j; by_cases hj : j = i <;> simp [hj]
    rw [this] at h1
    exact Steps.trans (.step .refl (.write i h)) h1

/-! ## Sequencing -/

theorem result_andThen {α β : Type} (p : Prog α) (f : Outcome α → Prog β) : ∀ s,
    (p.andThen f).result s = (f (p.result s)).result (p.final s) := by
  induction p with
  | ret o => intro s; rfl
  | read c k ih => intro s; exact ih _ s
  | write c v p ih => intro s; exact ih _

theorem final_andThen {α β : Type} (p : Prog α) (f : Outcome α → Prog β) : ∀ s,
    (p.andThen f).final s = (f (p.result s)).final (p.final s) := by
  induction p with
  | ret o => intro s; rfl
  | read c k ih => intro s; exact ih _ s
  | write c v p ih => intro s; exact ih _

theorem trace_andThen {α β : Type} (p : Prog α) (f : Outcome α → Prog β) : ∀ s,
    (p.andThen f).trace s = p.trace s ++ (f (p.result s)).trace (p.final s) := by
  induction p with
  | ret o => intro s; rfl
  | read c k ih => intro s; simp only [Prog.andThen, Prog.trace, ih]; rfl
  | write c v p ih => intro s; simp only [Prog.andThen, Prog.trace, ih]; rfl

theorem bind_def {α β : Type} (p : Prog α) (f : α → Prog β) : p >>= f = p.andThen fun
  | .ok a => f a
  | .throw e => .ret (.throw e)
  | .ub => .ret .ub := rfl

theorem pure_def {α : Type} (a : α) : (pure a : Prog α) = .ret (.ok a) := rfl

/-! ## Schedules -/

/-- One step of thread `i`, if it has not finished. -/
def stepOf {α : Type} (i : Nat) (x : Shared × (Nat → Prog α)) : Shared × (Nat → Prog α) :=
  match x.2 i with
  | .ret _ => x
  | .read c k => (x.1, fun j => if j = i then k (x.1 c) else x.2 j)
  | .write c v p => (x.1.set c v, fun j => if j = i then p else x.2 j)

/-- The threads take steps in the order given. -/
def runSchedule {α : Type} (is : List Nat) (s : Shared) (ts : Nat → Prog α) : Shared × (Nat → Prog α) :=
  is.foldl (fun x i => stepOf i x) (s, ts)

theorem steps_schedule {α : Type} (is : List Nat) : ∀ (s : Shared) (ts : Nat → Prog α),
    Steps s ts (runSchedule is s ts).1 (runSchedule is s ts).2 := by
  induction is with
  | nil => intro s ts; exact .refl
  | cons i is ih =>
    intro s ts
    rw [runSchedule, List.foldl_cons]
    have h : Steps s ts (stepOf i (s, ts)).1 (stepOf i (s, ts)).2 := by
      unfold stepOf
      dsimp only
      cases h : ts i with
      | ret o => exact .refl
      | read c k => exact .step .refl (.read i h)
      | write c v p => exact .step .refl (.write i h)
    exact h.trans (ih _ _)

/-- While the others have nothing to do, a thread runs as if alone. -/
theorem only_one {α : Type} {i : Nat} {s s' : Shared} {ts ts' : Nat → Prog α} (h : Steps s ts s' ts')
    (ho : ∀ j, j ≠ i → ∃ o, ts j = .ret o) : (ts' i).final s' = (ts i).final s ∧ (ts' i).result s' = (ts i).result s ∧ ∀ j, j ≠ i → ∃ o, ts' j = .ret o := by
  induction h with
  | refl => exact ⟨rfl, rfl, ho⟩
  | step _ h ih =>
    obtain ⟨h1, h1', h2⟩ := ih ho
    cases h with
    | @read c k j h =>
      by_cases hj : j = i
      · subst hj
        rw [h] at h1 h1'
        refine ⟨by simpa [Prog.final] using h1, by simpa [Prog.result] using h1', fun x hx => ?_⟩
        simpa [hx] using h2 x hx
      · obtain ⟨o, ho⟩ := h2 j hj
        rw [h] at ho; simp at ho
    | @write c v p j h =>
      by_cases hj : j = i
      · subst hj
        rw [h] at h1 h1'
        refine ⟨by simpa [Prog.final] using h1, by simpa [Prog.result] using h1', fun x hx => ?_⟩
        simpa [hx] using h2 x hx
      · obtain ⟨o, ho⟩ := h2 j hj
        rw [h] at ho; simp at ho

end Licensecc.Threads
