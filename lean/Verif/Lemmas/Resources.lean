import Verif.Spec.Resources
/-!
# Rules for computations that take and give back
-/
namespace Licensecc.Resources
open Licensecc Spec

/-- What is held: the kind of each number. -/
abbrev Holding := Nat → Option Kind

/-- Change at one place. -/
def Holding.set (H : Holding) (n : Nat) (x : Option Kind) : Holding := fun m => if m = n then x else H m

/-- The effect of events; the next number to be used is counted. -/
def replay : Holding → Nat → List Ev → Option (Holding × Nat)
  | H, n, [] => some (H, n)
  | H, n, .took h k :: es => if h = n ∧ H h = none then replay (H.set h (some k)) (n + 1) es else none
  | H, n, .gave h k :: es => if H h = some k then replay (H.set h none) n es else none

theorem replay_append (H : Holding) (n : Nat) (a b : List Ev) :
    replay H n (a ++ b) = (replay H n a).bind fun x => replay x.1 x.2 b := by
  induction a generalizing H n with
  | nil => rfl
  | cons e a ih =>
    cases e with
    | took h k =>
      simp only [List.cons_append, replay]
      split
      · exact ih _ _
      · rfl
    | gave h k =>
      simp only [List.cons_append, replay]
      split
      · exact ih _ _
      · rfl

theorem load_append (a b : List Ev) : load (a ++ b) = load a + load b := by
  induction a with
  | nil => simp [load]
  | cons e a ih => cases e <;> simp [load, ih] <;> omega

/-- The logger and the store agree. -/
def Inv (e : LogEnv) (s : Store) : Prop := (s.log = none → e.closed = true) ∧ (s.log ≠ none → e.overruns = false)

/-- The holdings and the store agree. -/
structure Compat (H : Holding) (s : Store) : Prop where
  unused : ∀ h, s.next ≤ h → H h = none
  log : ∀ h, s.log = some h → H h = some .logFile

/-- These things are held. -/
structure Has (H : Holding) (A : List (Nat × Kind)) : Prop where
  nodup : (A.map (·.1)).Nodup
  held : ∀ p ∈ A, H p.1 = some p.2
  noLog : ∀ p ∈ A, p.2 ≠ .logFile

/-- Without these things. -/
def Holding.drop (H : Holding) (A : List (Nat × Kind)) : Holding := fun h => if h ∈ A.map (·.1) then none else H h

/-- The log file may have been opened. -/
def After (G : Holding) (s : Store) (H' : Holding) (s' : Store) : Prop :=
  (s'.log = s.log ∧ H' = G) ∨ (s.log = none ∧ ∃ h, s'.log = some h ∧ s.next ≤ h ∧ h < s'.next ∧ H' = G.set h (some .logFile))

/-- What a computation does that begins with the things `A` in hand (and ends without them): its result is `x`; if there is one, what
    it takes and gives back is in order; never more than `c` things (besides the log file) are in hand. -/
def Does (e : LogEnv) (c : Nat) (A : List (Nat × Kind)) {α : Type} (u : Uses α) (x : Outcome α) : Prop :=
  ∀ s H, Inv e s → Compat H s → Has H A → (u s).result = x ∧ (x ≠ .ub →
    Inv e (u s).store ∧ s.next ≤ (u s).store.next
    ∧ (∃ H', replay H s.next (u s).trace = some (H', (u s).store.next) ∧ After (H.drop A) s H' (u s).store)
    ∧ (∀ p, p <+: (u s).trace → (A.length : Int) + load p ≤ c) ∧ (A.length : Int) + load (u s).trace = 0 ∧ ∀ h, Ev.gave h .logFile ∉ (u s).trace)

theorem drop_nil (H : Holding) : H.drop [] = H := by
  funext h; simp [Holding.drop]

theorem has_nil (H : Holding) : Has H [] := ⟨by simp, by simp, by simp⟩

theorem compat_after {H H' : Holding} {s s' : Store} (hc : Compat H s) (hn : s.next ≤ s'.next) (ha : After H s H' s') : Compat H' s' := by
  rcases ha with ⟨hl, rfl⟩ | ⟨hl, h, hl', h1, h2, rfl⟩
  · exact ⟨fun m hm => hc.unused m (by omega), fun m hm => hc.log m (by rw [← hl]; exact hm)⟩
  · refine ⟨fun m hm => ?_, fun m hm => ?_⟩
    · have : m ≠ h := by omega
      simp only [Holding.set, this, if_false]
      exact hc.unused m (by omega)
    · rw [hl'] at hm
      have : m = h := by simpa using hm.symm
      simp [Holding.set, this]

theorem has_after {H H' : Holding} {s s' : Store} {A : List (Nat × Kind)} (hc : Compat H s) (hA : Has H A) (ha : After H s H' s') : Has H' A := by
  rcases ha with ⟨_, rfl⟩ | ⟨_, h, _, h1, _, rfl⟩
  · exact hA
  · refine ⟨hA.nodup, fun p hp => ?_, hA.noLog⟩
    have hh := hA.held p hp
    have : p.1 ≠ h := by
      rintro rfl
      rw [hc.unused _ h1] at hh
      exact nomatch hh
    simp only [Holding.set, this, if_false, hh]

theorem after_drop {H H' : Holding} {s s' : Store} {A : List (Nat × Kind)} (hc : Compat H s) (hA : Has H A) (ha : After H s H' s') :
    After (H.drop A) s (H'.drop A) s' := by
  rcases ha with ⟨hl, rfl⟩ | ⟨hl, h, hl', h1, h2, rfl⟩
  · exact .inl ⟨hl, rfl⟩
  · refine .inr ⟨hl, h, hl', h1, h2, ?_⟩
    funext m
    simp only [Holding.drop, Holding.set]
    by_cases hm : m = h
    · subst hm
      have : m ∉ A.map (·.1) := by
        intro hmem
        obtain ⟨p, hp, rfl⟩ := List.mem_map.1 hmem
        have := hA.held p hp
        rw [hc.unused _ h1] at this
        exact nomatch this
      simp [this]
    · simp [hm]

theorem after_trans {G G' G'' : Holding} {s s' s'' : Store} (h1 : After G s G' s') (hn : s.next ≤ s'.next) (hn' : s'.next ≤ s''.next)
    (h2 : After G' s' G'' s'') : After G s G'' s'' := by
  rcases h1 with ⟨hl, rfl⟩ | ⟨hl, h, hl', h1, h2', rfl⟩
  · rcases h2 with ⟨hl2, rfl⟩ | ⟨hl2, h, hl', h1, h2, rfl⟩
    · exact .inl ⟨hl2.trans hl, rfl⟩
    · exact .inr ⟨by rw [← hl]; exact hl2, h, hl', by omega, h2, rfl⟩
  · rcases h2 with ⟨hl2, rfl⟩ | ⟨hl2, _⟩
    · exact .inr ⟨hl, h, hl2.trans hl', h1, by omega, rfl⟩
    · rw [hl'] at hl2
      exact nomatch hl2

theorem prefix_append {α : Type} {p a b : List α} (h : p <+: a ++ b) : p <+: a ∨ ∃ q, q <+: b ∧ p = a ++ q := by
  obtain ⟨t, ht⟩ := h
  rcases List.append_eq_append_iff.1 ht with ⟨r, hr, _⟩ | ⟨r, hr, hr'⟩
  · exact .inl ⟨r, hr.symm⟩
  · exact .inr ⟨r, ⟨t, hr'.symm⟩, hr⟩

variable {e : LogEnv} {c : Nat} {A : List (Nat × Kind)} {α β : Type}

/-- More may be in hand. -/
theorem Does.mono {c' : Nat} {u : Uses α} {x : Outcome α} (h : Does e c A u x) (hc : c ≤ c') : Does e c' A u x := fun s H hi hcm hA =>
  ⟨(h s H hi hcm hA).1, fun hx => by
    obtain ⟨h1, h2, h3, h4, h5⟩ := (h s H hi hcm hA).2 hx
    refine ⟨h1, h2, h3, fun p hp => ?_, h5⟩
    have := h4 p hp
    omega⟩

/-- Nothing happens. -/
theorem does_lift (x : Outcome α) : Does e c [] (lift x) x := fun s H hi _ _ =>
  ⟨rfl, fun _ => ⟨hi, Nat.le_refl _, ⟨H, rfl, .inl ⟨rfl, by rw [drop_nil]⟩⟩, fun p hp => by
    have : p = [] := List.prefix_nil.1 hp
    subst this
    simp [load], rfl, fun _ h => (nomatch h)⟩⟩

theorem does_pure (a : α) : Does e c [] (pure a) (.ok a) := does_lift (.ok a)

theorem does_ub (u : Uses α) (h : ∀ s, (u s).result = .ub) : Does e c A u .ub := fun s _ _ _ _ => ⟨h s, fun hx => absurd rfl hx⟩

theorem does_lift_ub : Does e c A (lift (.ub : Outcome α)) .ub := does_ub _ fun _ => rfl

/-- Something is done while `A` is in hand. -/
theorem Does.bind {c' : Nat} {u : Uses α} {x : Outcome α} {f : α → Uses β} {g : α → Outcome β} (hu : Does e c' [] u x)
    (hc : c' + A.length ≤ c) (ht : A = [] ∨ ∀ t, x ≠ .throw t) (hf : ∀ a, x = .ok a → Does e c A (f a) (g a)) :
    Does e c A (u >>= f) (x >>= g) := by
  intro s H hi hcm hA
  obtain ⟨hr, hrest⟩ := hu s H hi hcm (has_nil H)
  show (Uses.bind u f s).result = _ ∧ _
  show _ ∧ (_ → Inv e (Uses.bind u f s).store ∧ _ ≤ (Uses.bind u f s).store.next
    ∧ (∃ H', replay H s.next (Uses.bind u f s).trace = some (H', (Uses.bind u f s).store.next) ∧ After _ s H' (Uses.bind u f s).store)
    ∧ (∀ p, p <+: (Uses.bind u f s).trace → _) ∧ (_ + load (Uses.bind u f s).trace = 0) ∧ ∀ h, Ev.gave h .logFile ∉ (Uses.bind u f s).trace)
  unfold Uses.bind
  rw [hr]
  cases x with
  | ub => exact ⟨rfl, fun h => absurd rfl h⟩
  | throw t =>
    refine ⟨rfl, fun _ => ?_⟩
    obtain ⟨h1, h2, h3, h4, h5, h6⟩ := hrest (by simp)
    rcases ht with rfl | ht
    · refine ⟨h1, h2, h3, fun p hp => ?_, h5, h6⟩
      have := h4 p hp
      simp only [List.length_nil] at hc this ⊢
      omega
    · exact absurd rfl (ht t)
  | ok a =>
    obtain ⟨h1, h2, ⟨H1, h3, h3'⟩, h4, h5, h6⟩ := hrest (by simp)
    rw [drop_nil] at h3'
    have hcm1 := compat_after hcm h2 h3'
    obtain ⟨hr2, hrest2⟩ := hf a rfl (u s).store H1 h1 hcm1 (has_after hcm hA h3')
    refine ⟨hr2, fun hx => ?_⟩
    obtain ⟨i1, i2, ⟨H2, i3, i3'⟩, i4, i5, i6⟩ := hrest2 hx
    refine ⟨i1, Nat.le_trans h2 i2, ⟨H2, ?_, ?_⟩, ?_, ?_, fun h hm => (List.mem_append.1 hm).elim (h6 h) (i6 h)⟩
    · rw [replay_append, h3]; exact i3
    · exact after_trans (after_drop hcm hA h3') h2 i2 i3'
    · intro p hp
      rcases prefix_append hp with hp | ⟨q, hq, rfl⟩
      · have := h4 p hp
        simp only [List.length_nil] at this
        omega
      · have := i4 q hq
        rw [load_append]
        simp only [List.length_nil] at h5
        omega
    · rw [load_append]
      simp only [List.length_nil] at h5
      omega

/-- The same without anything in hand. -/
theorem Does.seq {u : Uses α} {x : Outcome α} {f : α → Uses β} {g : α → Outcome β} (hu : Does e c [] u x)
    (hf : ∀ a, x = .ok a → Does e c [] (f a) (g a)) : Does e c [] (u >>= f) (x >>= g) := hu.bind (by simp) (.inl rfl) hf

theorem Does.then {u : Uses α} {a : α} {f : α → Uses β} {x : Outcome β} (hu : Does e c [] u (.ok a)) (hf : Does e c [] (f a) x) :
    Does e c [] (u >>= f) x := by
  have := hu.seq (g := fun _ => x) (f := f) (fun a' ha => by
    simp only [Outcome.ok.injEq] at ha
    subst ha
    exact hf)
  exact this

/-- Something is taken into hand. -/
theorem does_take {k : Kind} {f : Nat → Uses β} {x : Outcome β} (hk : k ≠ .logFile) (hc : A.length + 1 ≤ c)
    (hf : ∀ n, (∀ p ∈ A, p.1 ≠ n) → Does e c ((n, k) :: A) (f n) x) : Does e c A (take k >>= f) x := by
  intro s H hi hcm hA
  have hfresh : ∀ p ∈ A, p.1 ≠ s.next := by
    rintro p hp h
    have := hA.held p hp
    rw [hcm.unused _ (by omega)] at this
    exact nomatch this
  have hnone : H s.next = none := hcm.unused _ (Nat.le_refl _)
  have hcm' : Compat (H.set s.next (some k)) { s with next := s.next + 1 } := by
    refine ⟨fun h hh => ?_, fun h hh => ?_⟩
    · have h1 : s.next + 1 ≤ h := hh
      have h2 : h ≠ s.next := by omega
      simp only [Holding.set, h2, if_false]
      exact hcm.unused h (by omega)
    · have := hcm.log h hh
      have h2 : h ≠ s.next := by
        rintro rfl
        rw [hnone] at this
        exact nomatch this
      simp only [Holding.set, h2, if_false, this]
  have hA' : Has (H.set s.next (some k)) ((s.next, k) :: A) := by
    refine ⟨?_, ?_, ?_⟩
    · simp only [List.map_cons, List.nodup_cons]
      refine ⟨?_, hA.nodup⟩
      intro hm
      obtain ⟨p, hp, hp'⟩ := List.mem_map.1 hm
      exact hfresh p hp hp'
    · intro p hp
      rcases List.mem_cons.1 hp with rfl | hp
      · simp [Holding.set]
      · simp only [Holding.set, hfresh p hp, if_false, hA.held p hp]
    · intro p hp
      rcases List.mem_cons.1 hp with rfl | hp
      · exact hk
      · exact hA.noLog p hp
  obtain ⟨hr, hrest⟩ := hf s.next hfresh { s with next := s.next + 1 } _ hi hcm' hA'
  have hrun : (take k >>= f) s = ⟨.took s.next k :: (f s.next { s with next := s.next + 1 }).trace,
    (f s.next { s with next := s.next + 1 }).store, (f s.next { s with next := s.next + 1 }).result⟩ := rfl
  rw [hrun]
  refine ⟨hr, fun hx => ?_⟩
  obtain ⟨h1, h2, ⟨H', h3, h3'⟩, h4, h5, h6⟩ := hrest hx
  have h2' : s.next + 1 ≤ (f s.next { s with next := s.next + 1 }).store.next := h2
  have hdrop : (H.set s.next (some k)).drop ((s.next, k) :: A) = H.drop A := by
    funext m
    simp only [Holding.drop, Holding.set, List.map_cons, List.mem_cons]
    by_cases hm : m = s.next
    · subst hm; simp [hnone]
    · simp only [hm, false_or, if_false]
  refine ⟨h1, Nat.le_of_succ_le h2', ⟨H', ?_, ?_⟩, ?_, ?_, fun h hm => ?_⟩
  · simp only [replay, hnone, and_self, if_true]
    exact h3
  · rw [hdrop] at h3'
    rcases h3' with ⟨hl, hG⟩ | ⟨hl, h, hl', i1, i2, hG⟩
    · exact .inl ⟨hl, hG⟩
    · exact .inr ⟨hl, h, hl', Nat.le_of_succ_le i1, i2, hG⟩
  · intro p hp
    cases p with
    | nil => simp only [load]; omega
    | cons q p =>
      dsimp only at hp
      obtain ⟨rfl, hp'⟩ := List.cons_prefix_cons.1 hp
      have := h4 p hp'
      simp only [List.length_cons] at this
      simp only [load, hk, if_false]
      omega
  · simp only [List.length_cons] at h5
    simp only [load, hk, if_false]
    omega
  · rcases List.mem_cons.1 hm with h' | hm
    · exact nomatch h'
    · exact h6 h hm

/-- Something in hand is given back. -/
theorem does_give {A' : List (Nat × Kind)} {n : Nat} {k : Kind} {f : Unit → Uses β} {x : Outcome β} (hp : A.Perm ((n, k) :: A'))
    (hc : A.length ≤ c) (hf : Does e c A' (f ()) x) : Does e c A (give n k >>= f) x := by
  intro s H hi hcm hA
  have hmem : (n, k) ∈ A := hp.mem_iff.2 (by simp)
  have hk := hA.noLog _ hmem
  have hheld : H n = some k := hA.held _ hmem
  have hnd : (((n, k) :: A').map (·.1)).Nodup := (hp.map (·.1)).nodup_iff.1 hA.nodup
  simp only [List.map_cons, List.nodup_cons] at hnd
  have hcm' : Compat (H.set n none) s := by
    refine ⟨fun h hh => ?_, fun h hh => ?_⟩
    · simp only [Holding.set]
      split
      · rfl
      · exact hcm.unused h hh
    · have := hcm.log h hh
      have h2 : h ≠ n := by
        rintro rfl
        rw [hheld] at this
        exact hk (by simpa using this)
      simp only [Holding.set, h2, if_false, this]
  have hA' : Has (H.set n none) A' := by
    refine ⟨hnd.2, fun p hpm => ?_, fun p hpm => hA.noLog p (hp.mem_iff.2 (by simp [hpm]))⟩
    have h2 : p.1 ≠ n := by
      rintro rfl
      exact hnd.1 (List.mem_map.2 ⟨p, hpm, rfl⟩)
    simp only [Holding.set, h2, if_false]
    exact hA.held p (hp.mem_iff.2 (by simp [hpm]))
  obtain ⟨hr, hrest⟩ := hf s _ hi hcm' hA'
  have hrun : (give n k >>= f) s = ⟨.gave n k :: (f () s).trace, (f () s).store, (f () s).result⟩ := rfl
  rw [hrun]
  refine ⟨hr, fun hx => ?_⟩
  obtain ⟨h1, h2, ⟨H', h3, h3'⟩, h4, h5, h6⟩ := hrest hx
  have hlen : A.length = A'.length + 1 := by rw [hp.length_eq]; simp
  have hdrop : (H.set n none).drop A' = H.drop A := by
    funext m
    have : m ∈ A.map (·.1) ↔ m = n ∨ m ∈ A'.map (·.1) := by
      rw [(hp.map (·.1)).mem_iff]; simp
    simp only [Holding.drop, Holding.set, this]
    by_cases hm : m = n
    · simp [hm]
    · simp only [hm, false_or, if_false]
  refine ⟨h1, h2, ⟨H', ?_, by rw [← hdrop]; exact h3'⟩, ?_, ?_, fun h hm => ?_⟩
  · simp only [replay, hheld, if_true]
    exact h3
  · intro p hpp
    cases p with
    | nil => simp only [load]; omega
    | cons q p =>
      dsimp only at hpp
      obtain ⟨rfl, hp'⟩ := List.cons_prefix_cons.1 hpp
      have := h4 p hp'
      simp only [load, hk, if_false]
      omega
  · simp only [load, hk, if_false]
    omega
  · rcases List.mem_cons.1 hm with h' | hm
    · simp only [Ev.gave.injEq] at h'
      exact hk h'.2.symm
    · exact h6 h hm

/-- The result, if there is one, as a value. -/
def settled (x : Outcome α) : Outcome (Outcome α) :=
  match x with
  | .ub => .ub
  | .ok a => .ok (.ok a)
  | .throw t => .ok (.throw t)

/-- A computation that does not let exceptions pass. -/
def settle (u : Uses α) : Uses (Outcome α) := fun s => ⟨(u s).trace, (u s).store, settled (u s).result⟩

/-- An object with a destructor. -/
theorem Does.during {c' : Nat} {k : Kind} {opened : Bool} {u : Uses α} {x : Outcome α} (hk : k ≠ .logFile) (hu : Does e c' [] u x)
    (hc : c' + 1 ≤ c) : Does e c [] (during k opened u) x := by
  cases opened with
  | false =>
    have := hu.mono (c' := c) (by omega)
    exact this
  | true =>
    have hbody : Does e c [] (do
        let n ← take k
        let r ← settle u
        give n k
        lift r) x := by
      refine does_take hk (by simp; omega) fun n _ => ?_
      have hcaught : Does e c' [] (settle u) (settled x) := by
        intro s H hi hcm hA
        obtain ⟨hr, hrest⟩ := hu s H hi hcm hA
        refine ⟨by simp only [settle, hr], fun hx => ?_⟩
        refine hrest ?_
        rintro rfl
        exact hx rfl
      have hx : x = (settled x >>= fun r => r) := by cases x <;> rfl
      rw [hx]
      refine Does.bind (A := [(n, k)]) hcaught (by simp; omega) (.inr fun t => by cases x <;> simp [settled]) fun r _ => ?_
      exact does_give (A' := []) (List.Perm.refl _) (by simp; omega) (does_lift r)
    intro s H hi hcm hA
    obtain ⟨hr, hrest⟩ := hbody s H hi hcm hA
    have hsame : ∀ s, (Resources.during k true u s).result = ((do
        let n ← take k
        let r ← settle u
        give n k
        lift r : Uses α) s).result ∧ ((u { s with next := s.next + 1 }).result ≠ .ub → Resources.during k true u s = ((do
        let n ← take k
        let r ← settle u
        give n k
        lift r : Uses α) s)) := by
      intro s
      simp only [Resources.during, if_true, Bind.bind, Uses.bind, take, give, lift, settle, settled]
      cases hres : (u { s with next := s.next + 1 }).result <;> simp
    obtain ⟨g1, g2⟩ := hsame s
    refine ⟨g1.trans hr, fun hx => ?_⟩
    have hne : (u { s with next := s.next + 1 }).result ≠ .ub := by
      intro hub
      apply hx
      rw [← hr, ← g1]
      simp only [Resources.during, if_true]
      exact hub
    rw [g2 hne]
    exact hrest hx

/-- The result when the exceptions `p` are caught and replaced by `y`. -/
def caught (p : Exn → Bool) (x y : Outcome α) : Outcome α :=
  match x with
  | .throw t => if p t then y else .throw t
  | .ok a => .ok a
  | .ub => .ub

/-- Exceptions that are caught. -/
theorem Does.catching {p : Exn → Bool} {u v : Uses α} {x y : Outcome α} (hu : Does e c [] u x) (hv : Does e c [] v y) :
    Does e c [] (catching p u v) (caught p x y) := by
  intro s H hi hcm hA
  obtain ⟨hr, hrest⟩ := hu s H hi hcm hA
  unfold Resources.catching
  rw [hr]
  cases x with
  | ok a => exact ⟨hr, hrest⟩
  | ub => exact ⟨hr, hrest⟩
  | throw t =>
    dsimp only
    unfold caught
    by_cases hp : p t = true
    · simp only [hp, if_true]
      obtain ⟨h1, h2, ⟨H1, h3, h3'⟩, h4, h5, h6⟩ := hrest (by simp)
      rw [drop_nil] at h3'
      obtain ⟨hr2, hrest2⟩ := hv (u s).store H1 h1 (compat_after hcm h2 h3') (has_nil _)
      refine ⟨hr2, fun hx => ?_⟩
      obtain ⟨i1, i2, ⟨H2, i3, i3'⟩, i4, i5, i6⟩ := hrest2 hx
      rw [drop_nil] at i3'
      refine ⟨i1, Nat.le_trans h2 i2, ⟨H2, ?_, ?_⟩, ?_, ?_, fun h hm => (List.mem_append.1 hm).elim (h6 h) (i6 h)⟩
      · rw [replay_append, h3]; exact i3
      · rw [drop_nil]; exact after_trans h3' h2 i2 i3'
      · intro q hq
        rcases prefix_append hq with hq | ⟨q', hq', rfl⟩
        · exact h4 q hq
        · have := i4 q' hq'
          rw [load_append]
          simp only [List.length_nil] at h5 this ⊢
          omega
      · rw [load_append]
        simp only [List.length_nil] at h5 i5 ⊢
        omega
    · simp only [hp, Bool.false_eq_true, if_false]
      exact ⟨hr, hrest⟩

theorem does_logLine : Does e 1 [] logLine (.ok ()) :=
  does_take (by simp) (by simp) fun n _ => does_give (f := fun _ => pure ()) (A' := []) (List.Perm.refl _) (by simp) (does_pure ())

theorem does_log : Does e 1 [] (log e) (if e.overruns then .ub else .ok ()) := by
  intro s H hi hcm hA
  cases hl : s.log with
  | some h =>
    have ho : e.overruns = false := hi.2 (by rw [hl]; simp)
    have hrun : log e s = logLine s := by simp only [log, hl]
    rw [hrun, ho]
    exact does_logLine s H hi hcm hA
  | none =>
    have hcl := hi.1 hl
    cases hf : e.fname with
    | none =>
      have ho : e.overruns = true := by simp [LogEnv.overruns, hcl, hf]
      have hrun : log e s = lift .ub s := by simp only [log, hl, hf]
      rw [hrun, ho]
      exact ⟨rfl, fun h => absurd rfl h⟩
    | some f =>
      have ho : e.overruns = false := by simp [LogEnv.overruns, hf]
      rw [ho]
      by_cases hopen : e.opens s.tries = true
      · have hrun0 : log e s = (do openLog; logLine : Uses Unit) s := by simp only [log, hl, hf, hopen, if_true]
        rw [hrun0]
        refine ⟨rfl, fun _ => ?_⟩
        have hnone : H s.next = none := hcm.unused _ (Nat.le_refl _)
        have hnone' : H (s.next + 1) = none := hcm.unused _ (by omega)
        have hrun : (do openLog; logLine : Uses Unit) s = ⟨[.took s.next .logFile, .took (s.next + 1) .block, .gave (s.next + 1) .block],
          { s with next := s.next + 1 + 1, log := some s.next, tries := s.tries + 1 }, .ok ()⟩ := rfl
        rw [hrun]
        refine ⟨⟨fun h => (nomatch h), fun _ => ho⟩, by dsimp only; omega, ⟨_, ?_, .inr ⟨hl, s.next, rfl, Nat.le_refl _, by dsimp only; omega, rfl⟩⟩, ?_, ?_, by simp⟩
        · simp only [replay, hnone, and_self, if_true]
          have h1 : (H.set s.next (some .logFile)) (s.next + 1) = none := by simp [Holding.set, hnone']
          have h2 : ((H.set s.next (some .logFile)).set (s.next + 1) (some .block)) (s.next + 1) = some .block := by simp [Holding.set]
          simp only [h1, h2, if_true, Option.some.injEq, Prod.mk.injEq, and_true]
          funext m
          rw [drop_nil]
          simp only [Holding.set]
          by_cases hm : m = s.next + 1
          · subst hm
            simp [hnone']
          · simp [hm]
        · intro p hp
          rcases p with _ | ⟨a, _ | ⟨b, _ | ⟨d, _ | ⟨f, p⟩⟩⟩⟩
          · simp [load]
          · simp only [List.cons_prefix_cons] at hp
            obtain ⟨rfl, _⟩ := hp
            simp [load]
          · simp only [List.cons_prefix_cons] at hp
            obtain ⟨rfl, rfl, _⟩ := hp
            simp [load]
          · simp only [List.cons_prefix_cons] at hp
            obtain ⟨rfl, rfl, rfl, _⟩ := hp
            simp [load]
          · simp at hp
        · simp [load]
      · have hrun0 : log e s = failLog s := by simp only [log, hl, hf, hopen, Bool.false_eq_true, if_false]
        rw [hrun0]
        refine ⟨rfl, fun _ => ⟨hi, Nat.le_refl _, ⟨H, rfl, .inl ⟨rfl, by rw [drop_nil]⟩⟩, ?_, rfl, fun _ h => (nomatch h)⟩⟩
        intro p hp
        have : p = [] := List.prefix_nil.1 hp
        subst this
        simp [load]

/-- A call that takes something into hand if it succeeds. -/
theorem does_takeIf {b : Bool} {k : Kind} {f : Option Nat → Uses β} {x : Outcome β} (hk : k ≠ .logFile) (hc : A.length + 1 ≤ c)
    (hf : b = true → ∀ n, (∀ p ∈ A, p.1 ≠ n) → Does e c ((n, k) :: A) (f (some n)) x) (hf' : b = false → Does e c A (f none) x) :
    Does e c A (takeIf b k >>= f) x := by
  cases b with
  | false =>
    have := hf' rfl
    exact this
  | true =>
    have : (takeIf true k >>= f : Uses β) = (take k >>= fun n => f (some n)) := rfl
    rw [this]
    exact does_take hk hc (hf rfl)

/-! ## From the rules to the specification -/

theorem replay_next {es : List Ev} : ∀ {H H' : Holding} {n n' : Nat}, replay H n es = some (H', n') → n ≤ n' := by
  induction es with
  | nil =>
    intro H H' n n' h
    simp only [replay, Option.some.injEq, Prod.mk.injEq] at h
    omega
  | cons ev es ih =>
    intro H H' n n' h
    cases ev with
    | took a k =>
      simp only [replay] at h
      split at h
      · have := ih h; omega
      · exact nomatch h
    | gave a k =>
      simp only [replay] at h
      split at h
      · exact ih h
      · exact nomatch h

/-- Numbers that are taken are new. -/
theorem replay_took {es : List Ev} : ∀ {H H' : Holding} {n n' i a : Nat} {k : Kind}, replay H n es = some (H', n') →
    es[i]? = some (.took a k) → n ≤ a := by
  induction es with
  | nil => intro H H' n n' i a k _ h; simp at h
  | cons ev es ih =>
    intro H H' n n' i a k h hi
    cases i with
    | zero =>
      simp only [List.getElem?_cons_zero, Option.some.injEq] at hi
      subst hi
      simp only [replay] at h
      split at h
      · omega
      · exact nomatch h
    | succ i =>
      simp only [List.getElem?_cons_succ] at hi
      cases ev with
      | took a' k' =>
        simp only [replay] at h
        split at h
        · have := ih h hi; omega
        · exact nomatch h
      | gave a' k' =>
        simp only [replay] at h
        split at h
        · exact ih h hi
        · exact nomatch h

theorem replay_takenOnce {es : List Ev} : ∀ {H H' : Holding} {n n' i j a : Nat} {k k' : Kind}, replay H n es = some (H', n') →
    es[i]? = some (.took a k) → es[j]? = some (.took a k') → i = j := by
  induction es with
  | nil => intro H H' n n' i j a k k' _ h; simp at h
  | cons ev es ih =>
    intro H H' n n' i j a k k' h hi hj
    cases i with
    | zero =>
      simp only [List.getElem?_cons_zero, Option.some.injEq] at hi
      subst hi
      cases j with
      | zero => rfl
      | succ j =>
        simp only [List.getElem?_cons_succ] at hj
        simp only [replay] at h
        split at h
        · have := replay_took h hj; omega
        · exact nomatch h
    | succ i =>
      simp only [List.getElem?_cons_succ] at hi
      cases j with
      | zero =>
        simp only [List.getElem?_cons_zero, Option.some.injEq] at hj
        subst hj
        simp only [replay] at h
        split at h
        · have := replay_took h hi; omega
        · exact nomatch h
      | succ j =>
        simp only [List.getElem?_cons_succ] at hj
        cases ev with
        | took a' k' =>
          simp only [replay] at h
          split at h
          · rw [ih h hi hj]
          · exact nomatch h
        | gave a' k' =>
          simp only [replay] at h
          split at h
          · rw [ih h hi hj]
          · exact nomatch h

/-- What is given back was taken, now or before. -/
theorem replay_gave {es : List Ev} : ∀ {H H' : Holding} {n n' i a : Nat} {k : Kind}, replay H n es = some (H', n') →
    es[i]? = some (.gave a k) → H a = some k ∨ ∃ j, j < i ∧ es[j]? = some (.took a k) := by
  induction es with
  | nil => intro H H' n n' i a k _ h; simp at h
  | cons ev es ih =>
    intro H H' n n' i a k h hi
    cases i with
    | zero =>
      simp only [List.getElem?_cons_zero, Option.some.injEq] at hi
      subst hi
      simp only [replay] at h
      split at h
      · exact .inl (by assumption)
      · exact nomatch h
    | succ i =>
      simp only [List.getElem?_cons_succ] at hi
      cases ev with
      | took a' k' =>
        simp only [replay] at h
        split at h
        · rcases ih h hi with hh | ⟨j, hj, hj'⟩
          · simp only [Holding.set] at hh
            split at hh
            · rename_i _ heq
              subst heq
              simp only [Option.some.injEq] at hh
              subst hh
              exact .inr ⟨0, by omega, rfl⟩
            · exact .inl hh
          · exact .inr ⟨j + 1, by omega, by simpa using hj'⟩
        · exact nomatch h
      | gave a' k' =>
        simp only [replay] at h
        split at h
        · rcases ih h hi with hh | ⟨j, hj, hj'⟩
          · simp only [Holding.set] at hh
            split at hh
            · exact nomatch hh
            · exact .inl hh
          · exact .inr ⟨j + 1, by omega, by simpa using hj'⟩
        · exact nomatch h

/-- What has been given back is not given back again. -/
theorem replay_not_gave {es : List Ev} : ∀ {H H' : Holding} {n n' i a : Nat} {k : Kind}, replay H n es = some (H', n') → a < n →
    H a = none → es[i]? ≠ some (.gave a k) := by
  intro H H' n n' i a k h hn hH hi
  rcases replay_gave h hi with hh | ⟨j, _, hj⟩
  · rw [hH] at hh; exact nomatch hh
  · have := replay_took h hj; omega

theorem replay_givenOnce {es : List Ev} : ∀ {H H' : Holding} {n n' i j a : Nat} {k k' : Kind}, (∀ m, n ≤ m → H m = none) →
    replay H n es = some (H', n') → es[i]? = some (.gave a k) → es[j]? = some (.gave a k') → i = j := by
  induction es with
  | nil => intro H H' n n' i j a k k' _ _ h; simp at h
  | cons ev es ih =>
    intro H H' n n' i j a k k' hH h hi hj
    have hgave : ∀ {m : Nat} {b : Kind} {b' : Kind}, ev = .gave a b → es[m]? ≠ some (.gave a b') := by
      rintro m b b' rfl hm
      simp only [replay] at h
      split at h
      · rename_i hab
        have hlt : a < n := by
          rcases Nat.lt_or_ge a n with h' | h'
          · exact h'
          · rw [hH a h'] at hab; exact nomatch hab
        exact replay_not_gave h hlt (by simp [Holding.set]) hm
      · exact nomatch h
    cases i with
    | zero =>
      simp only [List.getElem?_cons_zero, Option.some.injEq] at hi
      cases j with
      | zero => rfl
      | succ j => exact absurd (by simpa using hj) (hgave hi)
    | succ i =>
      simp only [List.getElem?_cons_succ] at hi
      cases j with
      | zero =>
        simp only [List.getElem?_cons_zero, Option.some.injEq] at hj
        exact absurd hi (hgave hj)
      | succ j =>
        simp only [List.getElem?_cons_succ] at hj
        cases ev with
        | took a' k' =>
          simp only [replay] at h
          split at h
          · rename_i hc
            rw [ih (fun m hm => by
              have : m ≠ a' := by omega
              simp only [Holding.set, this, if_false]
              exact hH m (by omega)) h hi hj]
          · exact nomatch h
        | gave a' k' =>
          simp only [replay] at h
          split at h
          · rw [ih (fun m hm => by
              simp only [Holding.set]
              split
              · rfl
              · exact hH m hm) h hi hj]
          · exact nomatch h

/-- What is held stays or is given back. -/
theorem replay_held {es : List Ev} : ∀ {H H' : Holding} {n n' a : Nat} {k : Kind}, replay H n es = some (H', n') → H a = some k →
    H' a = some k ∨ ∃ j : Nat, es[j]? = some (.gave a k) := by
  induction es with
  | nil =>
    intro H H' n n' a k h hH
    simp only [replay, Option.some.injEq, Prod.mk.injEq] at h
    exact .inl (by rw [← h.1]; exact hH)
  | cons ev es ih =>
    intro H H' n n' a k h hH
    cases ev with
    | took a' k' =>
      simp only [replay] at h
      split at h
      · rename_i hc
        have : a ≠ a' := by
          rintro rfl
          rw [hc.2] at hH
          exact nomatch hH
        rcases ih h (a := a) (k := k) (by simp only [Holding.set, this, if_false, hH]) with hh | ⟨j, hj⟩
        · exact .inl hh
        · exact .inr ⟨j + 1, by simpa using hj⟩
      · exact nomatch h
    | gave a' k' =>
      simp only [replay] at h
      split at h
      · rename_i hc
        by_cases haa : a = a'
        · subst haa
          rw [hH] at hc
          simp only [Option.some.injEq] at hc
          subst hc
          exact .inr ⟨0, rfl⟩
        · rcases ih h (a := a) (k := k) (by simp only [Holding.set, haa, if_false, hH]) with hh | ⟨j, hj⟩
          · exact .inl hh
          · exact .inr ⟨j + 1, by simpa using hj⟩
      · exact nomatch h

theorem replay_kept {es : List Ev} : ∀ {H H' : Holding} {n n' i a : Nat} {k : Kind}, replay H n es = some (H', n') →
    es[i]? = some (.took a k) → H' a = some k ∨ ∃ j, i < j ∧ es[j]? = some (.gave a k) := by
  induction es with
  | nil => intro H H' n n' i a k _ h; simp at h
  | cons ev es ih =>
    intro H H' n n' i a k h hi
    cases i with
    | zero =>
      simp only [List.getElem?_cons_zero, Option.some.injEq] at hi
      subst hi
      simp only [replay] at h
      split at h
      · rcases replay_held h (a := a) (k := k) (by simp [Holding.set]) with hh | ⟨j, hj⟩
        · exact .inl hh
        · exact .inr ⟨j + 1, by omega, by simpa using hj⟩
      · exact nomatch h
    | succ i =>
      simp only [List.getElem?_cons_succ] at hi
      cases ev with
      | took a' k' =>
        simp only [replay] at h
        split at h
        · rcases ih h hi with hh | ⟨j, hj, hj'⟩
          · exact .inl hh
          · exact .inr ⟨j + 1, by omega, by simpa using hj'⟩
        · exact nomatch h
      | gave a' k' =>
        simp only [replay] at h
        split at h
        · rcases ih h hi with hh | ⟨j, hj, hj'⟩
          · exact .inl hh
          · exact .inr ⟨j + 1, by omega, by simpa using hj'⟩
        · exact nomatch h

/-- From the rules to the specification. -/
theorem orderly_of_replay {es : List Ev} {H : Holding} {n : Nat} {s : Store} (h : replay (fun _ => none) 0 es = some (H, n))
    (ha : After (fun _ => none) untouched H s) (hg : ∀ h, Ev.gave h .logFile ∉ es) : Orderly es := by
  have hlog : ∀ {a : Nat} {k : Kind}, H a = some k → s.log = some a ∧ k = .logFile := by
    intro a k hk
    rcases ha with ⟨_, rfl⟩ | ⟨_, b, hb, _, _, rfl⟩
    · exact nomatch hk
    · simp only [Holding.set] at hk
      split at hk
      · rename_i hab
        subst hab
        exact ⟨hb, by simpa using hk.symm⟩
      · exact nomatch hk
  refine ⟨replay_takenOnce h, replay_givenOnce (fun _ _ => rfl) h, ?_, ?_, ?_⟩
  · intro i a k hi
    rcases replay_gave h hi with hh | hh
    · exact nomatch hh
    · exact hh
  · intro i a k hi hk
    rcases replay_kept h hi with hh | hh
    · exact absurd (hlog hh).2 hk
    · exact hh
  · intro i j a b hi hj
    have hheld : ∀ {i a : Nat}, es[i]? = some (.took a .logFile) → s.log = some a := by
      intro i a hi
      rcases replay_kept h hi with hh | ⟨m, _, hm⟩
      · exact (hlog hh).1
      · exact absurd (List.mem_of_getElem? hm) (hg a)
    have hab : a = b := by
      have h1 := hheld hi
      rw [hheld hj] at h1
      simpa using h1.symm
    subst hab
    exact replay_takenOnce h hi hj

end Licensecc.Resources
