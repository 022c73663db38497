import Verif.Lemmas.IniParse
import Verif.Lemmas.IniRoundTrip
import Verif.Spec.IniFile
import Verif.Props.IniSave
/-!
# Lemmas for C78: texts cut short
-/
namespace Licensecc.IniTorn
open Ini hiding loadComment load parse
open IniStore
open IniParse (every every_eq)
open IniMem (headerStep keyStep step_header step_key)
open Spec.IniStore Spec.IniFile

set_option linter.unusedSimpArgs false

/-! ## Scanning a text that goes on -/

theorem dropWhile_more {f : UInt8 → Bool} {p : Bytes} (u : Bytes) (h : p.dropWhile f ≠ []) :
    (p ++ u).dropWhile f = p.dropWhile f ++ u ∧ (p ++ u).takeWhile f = p.takeWhile f := by
  induction p with
  | nil => exact absurd rfl h
  | cons c p ih =>
    cases hc : f c with
    | true =>
      simp only [List.dropWhile_cons, hc, if_true] at h
      obtain ⟨h1, h2⟩ := ih h
      simp only [List.cons_append, List.dropWhile_cons, List.takeWhile_cons, hc, if_true, h1, h2, and_self]
    | false => simp only [List.cons_append, List.dropWhile_cons, List.takeWhile_cons, hc, Bool.false_eq_true, if_false, and_self]

theorem takeWhile_all {f : UInt8 → Bool} {p : Bytes} (u : Bytes) (h : p.dropWhile f = []) : p.takeWhile f = p ∧ (p ++ u).takeWhile f = p ++ u.takeWhile f := by
  induction p with
  | nil => exact ⟨rfl, rfl⟩
  | cons c p ih =>
    cases hc : f c with
    | true =>
      simp only [List.dropWhile_cons, hc, if_true] at h
      obtain ⟨h1, h2⟩ := ih h
      simp only [List.cons_append, List.takeWhile_cons, hc, if_true, h1, h2, and_self]
    | false => simp [List.dropWhile_cons, hc] at h

theorem dropWhile_all {f : UInt8 → Bool} {p : Bytes} (u : Bytes) (h : p.dropWhile f = []) : (p ++ u).dropWhile f = u.dropWhile f := by
  induction p with
  | nil => rfl
  | cons c p ih =>
    cases hc : f c with
    | true =>
      simp only [List.dropWhile_cons, hc, if_true] at h
      simp only [List.cons_append, List.dropWhile_cons, hc, if_true, ih h]
    | false => simp [List.dropWhile_cons, hc] at h

theorem skipNewLine_cons (c d : UInt8) (x : Bytes) : skipNewLine (c :: d :: x) = if c = 13 ∧ d = 10 then x else d :: x := by
  split
  · rename_i h; obtain ⟨rfl, rfl⟩ := h; rfl
  · rename_i h
    unfold skipNewLine
    split
    · rename_i e; simp only [List.cons.injEq] at e; exact absurd ⟨e.1, e.2.1⟩ h
    · rename_i e; simp only [List.cons.injEq] at e; exact e.2.symm
    · rename_i e; cases e

theorem skipNewLine_more {x : Bytes} (u : Bytes) (h : skipNewLine x ≠ []) : skipNewLine (x ++ u) = skipNewLine x ++ u := by
  match x, h with
  | [], h => exact absurd rfl h
  | [c], h =>
    exfalso; apply h
    unfold skipNewLine
    split <;> simp_all
  | c :: d :: x, _ =>
    rw [List.cons_append, List.cons_append, skipNewLine_cons, skipNewLine_cons]
    split <;> rfl

theorem trimRight_more (a b : Bytes) : trimRight a <+: trimRight (a ++ b) := by
  suffices h : ∀ r : Bytes, trimRight a <+: trimRight (a ++ r.reverse) by
    have := h b.reverse
    rwa [List.reverse_reverse] at this
  intro r
  induction r with
  | nil => rw [List.reverse_nil, List.append_nil]; exact List.prefix_refl _
  | cons c r ih =>
    rw [List.reverse_cons, ← List.append_assoc, IniMem.trimRight_snoc]
    split
    · exact ih
    · exact (IniStore.trimRight_prefix a).trans (by rw [List.append_assoc]; exact List.prefix_append _ _)

/-! ## One round -/

/-- The same with more text behind it. -/
def more (u : Bytes) : Step → Step
  | .done => .done
  | .skip r => .skip (r ++ u)
  | .badHeader r => .badHeader (r ++ u)
  | .header n r => .header n (r ++ u)
  | .entry k v r => .entry k v (r ++ u)

/-- A round on a text cut short: as before, or it was the last one. -/
def StepCut (u : Bytes) (part whole : Step) : Prop :=
  (part ≠ .done ∧ whole = more u part) ∨ part = .done ∨ part = .skip [] ∨ part = .badHeader [] ∨ (∃ n r, part = .header n [] ∧ whole = .header n r)
    ∨ ∃ k v v' r, part = .entry k v [] ∧ whole = .entry k v' r ∧ v <+: v'

theorem headerStep_cut (name y u : Bytes) (hy : y ≠ []) : StepCut u (headerStep name y) (headerStep name (y ++ u)) := by
  obtain ⟨c, y, rfl⟩ := List.exists_cons_of_ne_nil hy
  by_cases hc : c = 93
  · subst hc
    show StepCut u (.header _ _) (.header _ _)
    by_cases h : y.dropWhile (fun c => !isNL c) = []
    · refine .inr (.inr (.inr (.inr (.inl ⟨_, _, by rw [h], rfl⟩))))
    · refine .inl ⟨by simp, ?_⟩
      show Step.header _ ((y ++ u).dropWhile _) = _
      rw [(dropWhile_more u h).1]; rfl
  · have e : ∀ z, headerStep name (c :: z) = .badHeader (c :: z) := by
      intro z
      unfold headerStep
      split
      · rename_i h; simp only [List.cons.injEq] at h; exact absurd h.1 hc
      · rfl
    rw [List.cons_append, e, e]
    exact .inl ⟨by simp, rfl⟩

theorem keyStep_cut (key y u : Bytes) (hy : y ≠ []) : StepCut u (keyStep key y) (keyStep key (y ++ u)) := by
  obtain ⟨c, y, rfl⟩ := List.exists_cons_of_ne_nil hy
  by_cases hc : c = 61
  · subst hc
    by_cases hk : key = []
    · subst hk
      show StepCut u (.skip _) (.skip _)
      by_cases h : (61 :: y).dropWhile (fun c => !isNL c) = []
      · exact .inr (.inr (.inl (by rw [h])))
      · refine .inl ⟨by simp, ?_⟩
        have := (dropWhile_more u h).1
        rw [List.cons_append] at this
        show Step.skip ((61 :: (y ++ u)).dropWhile _) = Step.skip _
        rw [← this]
    · have e : ∀ z, keyStep key (61 :: z) = .entry (trimRight key) (trimRight ((z.dropWhile (fun c => !isNL c && isSp c)).takeWhile (fun c => !isNL c)))
          (skipNewLine ((z.dropWhile (fun c => !isNL c && isSp c)).dropWhile (fun c => !isNL c))) := by
        intro z
        show (if key = [] then _ else _) = _
        rw [if_neg hk]
      rw [List.cons_append, e, e]
      by_cases h1 : y.dropWhile (fun c => !isNL c && isSp c) = []
      · refine .inr (.inr (.inr (.inr (.inr ⟨_, _, _, _, by rw [h1]; rfl, rfl, ?_⟩))))
        exact List.nil_prefix
      · rw [(dropWhile_more u h1).1]
        generalize y.dropWhile (fun c => !isNL c && isSp c) = w
        by_cases h2 : w.dropWhile (fun c => !isNL c) = []
        · obtain ⟨t1, t2⟩ := takeWhile_all u h2
          refine .inr (.inr (.inr (.inr (.inr ⟨_, _, _, _, by rw [h2, t1]; rfl, rfl, ?_⟩))))
          rw [t2]
          exact trimRight_more _ _
        · obtain ⟨t1, t2⟩ := dropWhile_more u h2
          rw [t1, t2]
          by_cases h3 : skipNewLine (w.dropWhile (fun c => !isNL c)) = []
          · exact .inr (.inr (.inr (.inr (.inr ⟨_, _, _, _, by rw [h3], rfl, List.prefix_refl _⟩))))
          · refine .inl ⟨by simp, ?_⟩
            rw [skipNewLine_more u h3]; rfl
  · have e : ∀ z, keyStep key (c :: z) = .skip (c :: z) := by
      intro z
      unfold keyStep
      split
      · rename_i h; simp only [List.cons.injEq] at h; exact absurd h.1 hc
      · rfl
    rw [List.cons_append, e, e]
    exact .inl ⟨by simp, rfl⟩

theorem step_cut (p u : Bytes) (hs : startsComment (p.dropWhile isSp) = false) : StepCut u (step p) (step (p ++ u)) := by
  cases hr : p.dropWhile isSp with
  | nil => exact .inr (.inl (by rw [← step_dropSpace, hr]; rfl))
  | cons c z =>
    have hr2 : (p ++ u).dropWhile isSp = c :: (z ++ u) := by
      rw [(dropWhile_more u (by rw [hr]; simp)).1, hr]; rfl
    rw [hr] at hs
    by_cases hc : c = 91
    · subst hc
      rw [step_header hr, step_header hr2]
      by_cases h1 : z.dropWhile isSp = []
      · rw [h1]
        exact .inr (.inr (.inr (.inl rfl)))
      · rw [(dropWhile_more u h1).1]
        by_cases h2 : (z.dropWhile isSp).dropWhile (fun c => c != 93 && !isNL c) = []
        · rw [h2]
          exact .inr (.inr (.inr (.inl rfl)))
        · rw [(dropWhile_more u h2).1, (dropWhile_more u h2).2]
          exact headerStep_cut _ _ _ h2
    · rw [step_key hr hs hc, step_key hr2 hs hc]
      by_cases h2 : (c :: z).dropWhile (fun c => c != 61 && !isNL c) = []
      · rw [h2]
        exact .inr (.inr (.inl rfl))
      · have t := dropWhile_more u h2
        rw [List.cons_append] at t
        rw [t.1, t.2]
        exact keyStep_cut _ _ _ h2

/-! ## Comments -/

theorem startsComment_more {t : Bytes} (u : Bytes) (h : startsComment t = true) : startsComment (t ++ u) = true := by
  cases t with
  | nil => cases h
  | cons c t => exact h

/-- A comment of a text cut short: as before, or nothing but white space follows. -/
theorem ctext_cut (b : Bool) (u : Bytes) : ∀ (n : Nat) (acc t : Bytes), t.length < n → (ctext b acc t).2.dropWhile isSp = []
    ∨ ctext b acc (t ++ u) = ((ctext b acc t).1, (ctext b acc t).2 ++ u) := by
  intro n
  induction n with
  | zero => intro acc t h; omega
  | succ n ih =>
    intro acc t hn
    rw [ctext_eq b acc t, ctext_eq b acc (t ++ u)]
    cases hs : startsComment t with
    | true =>
      rw [startsComment_more u hs]
      simp only [if_true]
      by_cases h1 : t.dropWhile (fun c => !isNL c) = []
      · rw [if_pos h1]; exact .inl rfl
      · have ht := dropWhile_more u h1
        rw [if_neg h1, ht.1, ht.2, if_neg (by simp [h1])]
        by_cases h2 : skipNewLine (t.dropWhile (fun c => !isNL c)) = []
        · left
          rw [h2, ctext_eq]
          cases b <;> rfl
        · rw [skipNewLine_more u h2]
          have l1 := length_dropWhile_le (fun c => !isNL c) t
          have l2 := skipNewLine_length (t.dropWhile fun c => !isNL c)
          have l3 : 0 < (t.dropWhile fun c => !isNL c).length := List.length_pos_iff.mpr h1
          exact ih _ _ (by omega)
    | false =>
      simp only [Bool.false_eq_true, if_false]
      by_cases h0 : t.dropWhile isSp = []
      · left
        rw [h0]
        cases b <;> exact h0
      · have ht := dropWhile_more u h0
        have hs2 : startsComment (t ++ u) = false := by
          cases t with
          | nil => exact absurd rfl h0
          | cons c t => exact hs
        rw [hs2]
        simp only [Bool.false_eq_true, if_false]
        cases b with
        | false => exact .inr rfl
        | true =>
          simp only [if_true]
          rw [ht.1, ht.2]
          cases hs3 : startsComment (t.dropWhile isSp) with
          | true =>
            rw [startsComment_more u hs3]
            simp only [if_true]
            have l1 := length_dropWhile_le isSp t
            have l2 : (t.dropWhile isSp).length ≠ t.length := by
              intro he
              have := List.takeWhile_append_dropWhile (p := isSp) (l := t)
              have hlen := congrArg List.length this
              rw [List.length_append] at hlen
              have h0 : t.takeWhile isSp = [] := List.eq_nil_of_length_eq_zero (by omega)
              rw [h0, List.nil_append] at this
              rw [this, hs] at hs3
              cases hs3
            exact ih _ _ (by omega)
          | false =>
            have hs4 : startsComment (t.dropWhile isSp ++ u) = false := by
              cases hd : t.dropWhile isSp with
              | nil => exact absurd hd h0
              | cons c t => rw [hd] at hs3; exact hs3
            rw [hs4]
            exact .inr rfl

/-! ## All that is found -/

/-- The first of what is found, the value of the last perhaps only in part. -/
def Torn (part whole : List Found) : Prop :=
  part <+: whole ∨ ∃ l s k v v' c rest, part = l ++ [⟨s, some (k, v), c⟩] ∧ whole = l ++ ⟨s, some (k, v'), c⟩ :: rest ∧ v <+: v'

theorem Torn.cons {part whole : List Found} (f : Found) (h : Torn part whole) : Torn (f :: part) (f :: whole) := by
  rcases h with h | ⟨l, s, k, v, v', c, rest, rfl, rfl, h⟩
  · exact .inl (List.cons_prefix_cons.mpr ⟨rfl, h⟩)
  · exact .inr ⟨f :: l, s, k, v, v', c, rest, rfl, rfl, h⟩

/-- The same place of a text with more text behind it. -/
def PlaceCut (u : Bytes) : Place → Place → Prop
  | .named n, .named n' => n = n'
  | .broken s, .broken s' => s' = s ++ u
  | _, _ => False

theorem PlaceCut.name {u : Bytes} {place place' : Place} (h : PlaceCut u place place') (t k : Bytes) : place.name t k = place'.name (t ++ u) k := by
  cases place <;> cases place' <;> simp only [PlaceCut] at h
  · exact h
  · subst h
    simp only [Place.name]
    rw [List.length_append, List.length_append, show ∀ a b c : Nat, a + c - (b + c) = a - b by omega, List.take_append_of_le_length (by omega)]

theorem every_space (o : Options) (copy : Bool) (place : Place) (c : Option Bytes) {t : Bytes} (h : t.dropWhile isSp = []) : every o copy place c t = [] := by
  rw [every_eq, h, if_neg (by decide), ← step_dropSpace, h]
  rfl

theorem badHeader_rest {p r : Bytes} (hs : startsComment (p.dropWhile isSp) = false) (h : step p = .badHeader r) (hz : (p.dropWhile isSp).tail.dropWhile isSp = []) :
    r = [] := by
  cases hr : p.dropWhile isSp with
  | nil => rw [← step_dropSpace, hr] at h; cases h
  | cons c z =>
    rw [hr] at hs hz
    by_cases hc : c = 91
    · subst hc
      rw [step_header hr] at h
      rw [List.tail_cons] at hz
      rw [hz] at h
      cases h; rfl
    · rw [step_key hr hs hc] at h
      unfold keyStep at h
      split at h
      · split at h <;> cases h
      · cases h

theorem every_cut {o : Options} (hm : o.multiLine = false) (copy : Bool) (u : Bytes) : ∀ (n : Nat) (p : Bytes), p.length < n → ∀ place place' c,
    PlaceCut u place place' → Torn (every o copy place c p) (every o copy place' c (p ++ u)) := by
  intro n
  induction n with
  | zero => intro p h; omega
  | succ n ih =>
    intro p hn place place' c hpl
    by_cases h0 : p.dropWhile isSp = []
    · rw [every_space o copy place c h0]; exact .inl List.nil_prefix
    have ht := (dropWhile_more u h0).1
    have hd := length_dropWhile_le isSp p
    rw [every_eq o copy place c p, every_eq o copy place' c (p ++ u), ht]
    cases hs : startsComment (p.dropWhile isSp) with
    | true =>
      have hs2 := startsComment_more u hs
      rw [hs2, if_pos rfl, if_pos rfl, commentText_eq_ctext true hs, commentText_eq_ctext true hs2]
      have hp := IniParse.comment_progress hs
      rw [commentText_eq_ctext true hs] at hp
      rcases ctext_cut true u _ [] _ (Nat.lt_succ_self _) with h1 | h1
      · rw [every_space _ _ _ _ h1]; exact .inl List.nil_prefix
      · rw [h1]
        exact ih _ (by omega) _ _ _ (hpl.name _ _)
    | false =>
      have hs2 : startsComment (p.dropWhile isSp ++ u) = false := by
        cases hq : p.dropWhile isSp with
        | nil => exact absurd hq h0
        | cons c t => rw [hq] at hs; exact hs
      rw [hs2, if_neg Bool.false_ne_true, if_neg Bool.false_ne_true]
      have hprog := step_progress (p.dropWhile isSp)
      rw [step_dropSpace] at hprog
      have hnil : ∀ place c, every o copy place c [] = [] := fun place c => every_space o copy place c rfl
      rcases step_cut p u hs with ⟨h1, h2⟩ | h1 | h1 | h1 | ⟨nm, r, h1, h2⟩ | ⟨k, v, v', r, h1, h2, h3⟩
      · rw [h2]
        cases hst : step p with
        | done => exact absurd hst h1
        | skip r =>
          rw [hst] at hprog
          have hl : r.length < (p.dropWhile isSp).length := hprog.resolve_left (by intro h; cases h)
          exact ih _ (by omega) _ _ _ hpl
        | badHeader r =>
          rw [hst] at hprog
          have hl : r.length < (p.dropWhile isSp).length := hprog.resolve_left (by intro h; cases h)
          simp only [more]
          by_cases hz : (p.dropWhile isSp).tail.dropWhile isSp = []
          · rw [badHeader_rest hs hst hz, hnil]; exact .inl List.nil_prefix
          · refine ih _ (by omega) _ _ _ ?_
            show _ = _
            have : (p.dropWhile isSp ++ u).tail = (p.dropWhile isSp).tail ++ u := by
              cases hq : p.dropWhile isSp with
              | nil => exact absurd hq h0
              | cons c t => rfl
            rw [this, (dropWhile_more u hz).1]
        | header a r =>
          rw [hst] at hprog
          have hl : r.length < (p.dropWhile isSp).length := hprog.resolve_left (by intro h; cases h)
          exact Torn.cons _ (ih _ (by omega) _ _ _ rfl)
        | entry k v r =>
          rw [hst] at hprog
          have hl : r.length < (p.dropWhile isSp).length := hprog.resolve_left (by intro h; cases h)
          simp only [hm, more, Bool.false_and, Bool.false_eq_true, if_false, ← hpl.name]
          exact Torn.cons _ (ih _ (by omega) _ _ _ rfl)
      · rw [h1]; exact .inl List.nil_prefix
      · rw [h1]; simp only [hnil]; exact .inl List.nil_prefix
      · rw [h1]; simp only [hnil]; exact .inl List.nil_prefix
      · rw [h1, h2]; simp only [hnil]
        exact .inl ⟨_, rfl⟩
      · rw [h1, h2]
        simp only [hm, hnil, Bool.false_and, Bool.false_eq_true, if_false, ← hpl.name]
        exact .inr ⟨[], _, _, _, _, _, _, rfl, rfl, h3⟩

/-! ## Documents cut short -/

theorem Torn.append {part a b : List Found} (h : Torn part (a ++ b)) : Torn part a ∨ ∃ part', part = a ++ part' ∧ Torn part' b := by
  induction a generalizing part with
  | nil => exact .inr ⟨part, rfl, h⟩
  | cons x a ih =>
    rcases h with h | ⟨l, s, k, v, v', c, rest, h1, h2, h3⟩
    · cases part with
      | nil => exact .inl (.inl List.nil_prefix)
      | cons y part =>
        obtain ⟨rfl, hh⟩ := List.cons_prefix_cons.mp h
        rcases ih (.inl hh) with h' | ⟨part', rfl, h'⟩
        · exact .inl (h'.cons y)
        · exact .inr ⟨part', rfl, h'⟩
    · cases l with
      | nil =>
        simp only [List.nil_append, List.cons_append, List.cons.injEq] at h1 h2
        obtain ⟨rfl, rfl⟩ := h2
        exact .inl (.inr ⟨[], s, k, v, v', c, a, h1, rfl, h3⟩)
      | cons y l =>
        simp only [List.cons_append, List.cons.injEq] at h2
        obtain ⟨rfl, h2⟩ := h2
        subst h1
        rcases ih (part := l ++ [⟨s, some (k, v), c⟩]) (.inr ⟨l, s, k, v, v', c, rest, rfl, h2, h3⟩) with h' | ⟨part', h4, h'⟩
        · exact .inl (h'.cons x)
        · exact .inr ⟨part', by rw [List.cons_append, h4]; rfl, h'⟩

theorem CutValues.cons {a b : List (Bytes × Option Bytes)} (x : Bytes × Option Bytes) (h : CutValues a b) : CutValues (x :: a) (x :: b) := by
  rcases h with h | ⟨l, v, v', c, rest, rfl, rfl, h⟩
  · exact .inl (List.cons_prefix_cons.mpr ⟨rfl, h⟩)
  · exact .inr ⟨x :: l, v, v', c, rest, rfl, rfl, h⟩

theorem CutKeys.cons {a b : List DocKey} (x : DocKey) (h : CutKeys a b) : CutKeys (x :: a) (x :: b) := by
  rcases h with h | ⟨l, k, vs, rest, rfl, rfl, h1, h2⟩
  · exact .inl (List.cons_prefix_cons.mpr ⟨rfl, h⟩)
  · exact .inr ⟨x :: l, k, vs, rest, rfl, rfl, h1, h2⟩

theorem CutDoc.cons {a b : Doc} (x : DocSection) (h : CutDoc a b) : CutDoc (x :: a) (x :: b) := by
  rcases h with h | ⟨l, k, vs, rest, rfl, rfl, h1⟩
  · exact .inl (List.cons_prefix_cons.mpr ⟨rfl, h⟩)
  · exact .inr ⟨x :: l, k, vs, rest, rfl, rfl, h1⟩

theorem torn_values {n k : Bytes} : ∀ {vs : List (Bytes × Option Bytes)} {part : List Found}, Torn part (vs.map fun v => ⟨n, some (k, v.1), v.2⟩) →
    ∃ vs', part = (vs'.map fun v => ⟨n, some (k, v.1), v.2⟩) ∧ CutValues vs' vs := by
  intro vs
  induction vs with
  | nil =>
    intro part h
    rcases h with h | ⟨l, _, _, _, _, _, _, _, h2, _⟩
    · exact ⟨[], by simpa using h, .inl (List.prefix_refl _)⟩
    · simp at h2
  | cons x vs ih =>
    intro part h
    rcases Torn.append (a := [⟨n, some (k, x.1), x.2⟩]) (b := vs.map fun v => ⟨n, some (k, v.1), v.2⟩) h with h | ⟨part', rfl, hh⟩
    · rcases h with h | ⟨l, s, k', v, v', c, rest, h1, h2, h3⟩
      · cases part with
        | nil => exact ⟨[], rfl, .inl List.nil_prefix⟩
        | cons y part =>
          obtain ⟨rfl, h⟩ := List.cons_prefix_cons.mp h
          have : part = [] := by simpa using h
          subst this
          exact ⟨[x], rfl, .inl ⟨vs, rfl⟩⟩
      · cases l with
        | cons y l => simp at h2
        | nil =>
          simp only [List.nil_append, List.cons.injEq, Found.mk.injEq, Option.some.injEq, Prod.mk.injEq] at h2
          obtain ⟨⟨rfl, ⟨rfl, rfl⟩, rfl⟩, _⟩ := h2
          refine ⟨[(v, x.2)], h1, .inr ⟨[], x.1, v, x.2, vs, rfl, rfl, h3⟩⟩
    · obtain ⟨vs', rfl, h'⟩ := ih hh
      exact ⟨x :: vs', rfl, CutValues.cons x h'⟩

theorem torn_keys {n : Bytes} : ∀ {ks : List DocKey} {part : List Found},
    Torn part (ks.flatMap fun k => k.values.map fun v => ⟨n, some (k.name, v.1), v.2⟩) →
    ∃ ks', part = (ks'.flatMap fun k => k.values.map fun v => ⟨n, some (k.name, v.1), v.2⟩) ∧ CutKeys ks' ks := by
  intro ks
  induction ks with
  | nil =>
    intro part h
    rcases h with h | ⟨l, _, _, _, _, _, _, _, h2, _⟩
    · exact ⟨[], by simpa using h, .inl (List.prefix_refl _)⟩
    · simp at h2
  | cons x ks ih =>
    intro part h
    rw [List.flatMap_cons] at h
    rcases Torn.append h with h | ⟨part', rfl, hh⟩
    · obtain ⟨vs', rfl, h'⟩ := torn_values h
      by_cases hv : vs' = []
      · subst hv; exact ⟨[], rfl, .inl List.nil_prefix⟩
      · exact ⟨[⟨x.name, vs'⟩], by simp, .inr ⟨[], x, vs', ks, rfl, rfl, hv, h'⟩⟩
    · obtain ⟨ks', rfl, h'⟩ := ih hh
      exact ⟨x :: ks', by rw [List.flatMap_cons], CutKeys.cons x h'⟩

theorem torn_doc : ∀ {d : Doc} {part : List Found}, (∀ s ∈ d, s.name = [] → s.keys ≠ []) → Torn part (d.flatMap sectionFound) →
    ∃ d', part = d'.flatMap sectionFound ∧ CutDoc d' d ∧ ∀ s ∈ d', s.name = [] → s.keys ≠ [] := by
  intro d
  induction d with
  | nil =>
    intro part _ h
    rcases h with h | ⟨l, _, _, _, _, _, _, _, h2, _⟩
    · exact ⟨[], by simpa using h, .inl (List.prefix_refl _), by simp⟩
    · simp at h2
  | cons x d ih =>
    intro part hn h
    rw [List.flatMap_cons] at h
    rcases Torn.append h with h | ⟨part', rfl, hh⟩
    · unfold sectionFound at h
      by_cases hx : x.name = []
      · rw [if_pos hx, List.nil_append] at h
        obtain ⟨ks', rfl, h'⟩ := torn_keys h
        by_cases hk : ks' = []
        · subst hk; exact ⟨[], rfl, .inl List.nil_prefix, by simp⟩
        · refine ⟨[⟨x.name, x.comment, ks'⟩], by simp [sectionFound, hx], .inr ⟨[], x, ks', d, rfl, rfl, h'⟩, ?_⟩
          intro s hs _
          simp only [List.mem_singleton] at hs
          subst hs; exact hk
      · rw [if_neg hx] at h
        rcases Torn.append h with h | ⟨part', rfl, hh⟩
        · rcases h with h | ⟨l, _, _, _, _, _, _, _, h2, _⟩
          · cases part with
            | nil => exact ⟨[], rfl, .inl List.nil_prefix, by simp⟩
            | cons y part =>
              obtain ⟨rfl, h⟩ := List.cons_prefix_cons.mp h
              have : part = [] := by simpa using h
              subst this
              refine ⟨[⟨x.name, x.comment, []⟩], by simp [sectionFound, hx], .inr ⟨[], x, [], d, rfl, rfl, .inl List.nil_prefix⟩, ?_⟩
              intro s hs hs'
              simp only [List.mem_singleton] at hs
              subst hs; exact absurd hs' hx
          · cases l <;> simp at h2
        · obtain ⟨ks', rfl, h'⟩ := torn_keys hh
          refine ⟨[⟨x.name, x.comment, ks'⟩], by simp [sectionFound, hx], .inr ⟨[], x, ks', d, rfl, rfl, h'⟩, ?_⟩
          intro s hs hs'
          simp only [List.mem_singleton] at hs
          subst hs; exact absurd hs' hx
    · obtain ⟨d', rfl, h', h2⟩ := ih (fun s hs => hn s (by simp [hs])) hh
      refine ⟨x :: d', by rw [List.flatMap_cons], CutDoc.cons x h', ?_⟩
      intro s hs
      rcases List.mem_cons.mp hs with rfl | hs
      · exact hn s (by simp)
      · exact h2 s hs

/-! ## The documents they make -/

theorem CutValues.length {a b : List (Bytes × Option Bytes)} (h : CutValues a b) : a.length ≤ b.length := by
  rcases h with h | ⟨l, v, v', c, rest, rfl, rfl, h⟩
  · exact h.length_le
  · simp

theorem CutKeys.names {a b : List DocKey} (h : CutKeys a b) : a.map (·.name) <+: b.map (·.name) := by
  rcases h with h | ⟨l, k, vs, rest, rfl, rfl, h1, h2⟩
  · exact h.map _
  · exact ⟨rest.map (·.name), by simp⟩

theorem CutDoc.names {a b : Doc} (h : CutDoc a b) : a.map (·.name) <+: b.map (·.name) := by
  rcases h with h | ⟨l, k, vs, rest, rfl, rfl, h1⟩
  · exact h.map _
  · exact ⟨rest.map (·.name), by simp⟩

theorem CutKeys.mem {a b : List DocKey} (h : CutKeys a b) {k : DocKey} (hk : k ∈ a) : k ∈ b ∨ ∃ k' ∈ b, k.name = k'.name ∧ k.values ≠ [] ∧ CutValues k.values k'.values := by
  rcases h with h | ⟨l, k', vs, rest, rfl, rfl, h1, h2⟩
  · exact .inl (h.subset hk)
  · rcases List.mem_append.mp hk with hk | hk
    · exact .inl (by simp [hk])
    · simp only [List.mem_singleton] at hk
      subst hk
      exact .inr ⟨k', by simp, rfl, h1, h2⟩

theorem CutDoc.mem {a b : Doc} (h : CutDoc a b) {s : DocSection} (hs : s ∈ a) : ∃ s' ∈ b, s.name = s'.name ∧ s.comment = s'.comment ∧ CutKeys s.keys s'.keys := by
  rcases h with h | ⟨l, k', vs, rest, rfl, rfl, h1⟩
  · exact ⟨s, h.subset hs, rfl, rfl, .inl (List.prefix_refl _)⟩
  · rcases List.mem_append.mp hs with hs | hs
    · exact ⟨s, by simp [hs], rfl, rfl, .inl (List.prefix_refl _)⟩
    · simp only [List.mem_singleton] at hs
      subst hs
      exact ⟨k', by simp, rfl, rfl, h1⟩

theorem fold_cut {multi : Bool} {d d' : Doc} (hw : DocWF multi d) (hn : ∀ s ∈ d, s.name = [] → s.comment = none ∧ s.keys ≠ []) (hc : CutDoc d' d)
    (hk : ∀ s ∈ d', s.name = [] → s.keys ≠ []) : (d'.flatMap sectionFound).foldl (fun d f => f.change.apply multi d) [] = d' := by
  have hd : NamesDistinct ([] ++ d') := by
    rw [List.nil_append]
    have h1 : (d.map (·.name)).Pairwise fun a b => ¬ Spec.SameCI a b := List.pairwise_map.mpr hw.names
    exact List.pairwise_map.mp (h1.sublist (CutDoc.names hc).sublist)
  have hks : ∀ s ∈ d', ∀ k ∈ s.keys, k.values ≠ [] ∧ (multi = false → k.values.length = 1) := by
    intro s hs k hk
    obtain ⟨s', h1, _, _, h2⟩ := CutDoc.mem hc hs
    rcases CutKeys.mem h2 hk with h3 | ⟨k', h3, _, h4, h5⟩
    · exact ⟨hw.some s' h1 k h3, fun hm => hw.one hm s' h1 k h3⟩
    · refine ⟨h4, fun hm => ?_⟩
      have := hw.one hm s' h1 k' h3
      have h6 := CutValues.length h5
      have h7 := List.length_pos_iff.mpr h4
      omega
  rw [fold_doc hd, List.nil_append]
  · intro s hs
    obtain ⟨s', h1, _, _, h2⟩ := CutDoc.mem hc hs
    have h3 : (s'.keys.map (·.name)).Pairwise fun a b => ¬ Spec.SameCI a b := List.pairwise_map.mpr (hw.keys s' h1)
    exact List.pairwise_map.mp (h3.sublist (CutKeys.names h2).sublist)
  · exact fun s hs k hk => (hks s hs k hk).1
  · exact fun hm s hs k hk => (hks s hs k hk).2 hm
  · intro s hs hs'
    obtain ⟨s', h1, h2, h3, _⟩ := CutDoc.mem hc hs
    exact ⟨by rw [h3]; exact (hn s' h1 (by rw [← h2]; exact hs')).1, hk s hs hs'⟩

/-! ## The comment of the file -/

theorem ctext_acc : ∀ (n : Nat) (acc t : Bytes), t.length < n → acc.dropLast <+: (ctext false acc t).1 := by
  intro n
  induction n with
  | zero => intro acc t h; omega
  | succ n ih =>
    intro acc t hn
    rw [ctext_eq]
    split
    · split
      · exact (List.dropLast_prefix acc).trans (List.prefix_append _ _)
      · rename_i h1
        have l1 := length_dropWhile_le (fun c => !isNL c) t
        have l2 := skipNewLine_length (t.dropWhile fun c => !isNL c)
        have l3 : 0 < (t.dropWhile fun c => !isNL c).length := List.length_pos_iff.mpr h1
        have := ih (acc ++ t.takeWhile (fun c => !isNL c) ++ [10]) (skipNewLine (t.dropWhile fun c => !isNL c)) (by omega)
        rw [List.dropLast_append_of_ne_nil (by simp)] at this
        simp only [List.dropLast_singleton, List.append_nil] at this
        exact ((List.dropLast_prefix acc).trans (List.prefix_append _ _)).trans this
    · exact List.prefix_refl _

theorem ctext_first (u : Bytes) : ∀ (n : Nat) (acc t : Bytes), t.length < n → (ctext false acc t).1 <+: (ctext false acc (t ++ u)).1 := by
  intro n
  induction n with
  | zero => intro acc t h; omega
  | succ n ih =>
    intro acc t hn
    rw [ctext_eq false acc t]
    cases hs : startsComment t with
    | true =>
      simp only [if_true]
      by_cases h1 : t.dropWhile (fun c => !isNL c) = []
      · rw [if_pos h1, ctext_eq, startsComment_more u hs]
        simp only [if_true]
        rw [(takeWhile_all u h1).1, (takeWhile_all u h1).2]
        split
        · rw [← List.append_assoc]; exact List.prefix_append _ _
        · refine List.IsPrefix.trans ?_ (ctext_acc _ _ _ (Nat.lt_succ_self _))
          rw [List.dropLast_append_of_ne_nil (by simp)]
          simp only [List.dropLast_singleton, List.append_nil]
          rw [← List.append_assoc]; exact List.prefix_append _ _
      · have l1 := length_dropWhile_le (fun c => !isNL c) t
        have l2 := skipNewLine_length (t.dropWhile fun c => !isNL c)
        have l3 : 0 < (t.dropWhile fun c => !isNL c).length := List.length_pos_iff.mpr h1
        have ht := dropWhile_more u h1
        rw [if_neg h1, ctext_eq false acc (t ++ u), startsComment_more u hs]
        simp only [if_true]
        rw [ht.1, ht.2, if_neg (by simp [h1])]
        by_cases h2 : skipNewLine (t.dropWhile (fun c => !isNL c)) = []
        · rw [h2, ctext_eq false _ []]
          exact ctext_acc _ _ _ (Nat.lt_succ_self _)
        · rw [skipNewLine_more u h2]
          exact ih _ _ (by omega)
    | false =>
      simp only [Bool.false_eq_true, if_false]
      exact ctext_acc _ _ _ (Nat.lt_succ_self _)

end Licensecc.IniTorn
