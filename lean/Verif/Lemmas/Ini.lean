import Verif.Spec.Ini
import Verif.Lemmas.Base64
/-!
# Lemmas about the INI parser
-/
namespace Licensecc.Ini

/-! ## takeWhile / dropWhile -/

/-- Either empty or starting with a byte that fails `p`. -/
def Stops (p : UInt8 → Bool) (b : Bytes) : Prop := ∀ c, b.head? = some c → p c = false

theorem stops_nil (p : UInt8 → Bool) : Stops p [] := by simp [Stops]
theorem stops_cons {p : UInt8 → Bool} {c : UInt8} {b : Bytes} (h : p c = false) : Stops p (c :: b) := by
  intro d hd; simp at hd; subst hd; exact h

theorem takeWhile_append_stops {p : UInt8 → Bool} {a b : Bytes} (ha : ∀ c ∈ a, p c = true) (hb : Stops p b) :
    (a ++ b).takeWhile p = a := by
  induction a with
  | nil =>
    cases b with
    | nil => rfl
    | cons c b => simp [List.takeWhile_cons, hb c rfl]
  | cons c a ih =>
    simp only [List.cons_append, List.takeWhile_cons, ha c (by simp), if_true]
    rw [ih (fun d hd => ha d (by simp [hd]))]

theorem dropWhile_append_stops {p : UInt8 → Bool} {a b : Bytes} (ha : ∀ c ∈ a, p c = true) (hb : Stops p b) :
    (a ++ b).dropWhile p = b := by
  induction a with
  | nil =>
    cases b with
    | nil => rfl
    | cons c b => simp [List.dropWhile_cons, hb c rfl]
  | cons c a ih =>
    simp only [List.cons_append, List.dropWhile_cons, ha c (by simp), if_true]
    exact ih (fun d hd => ha d (by simp [hd]))

theorem dropWhile_append_all {p : UInt8 → Bool} {a b : Bytes} (ha : ∀ c ∈ a, p c = true) :
    (a ++ b).dropWhile p = b.dropWhile p := by
  induction a with
  | nil => rfl
  | cons c a ih =>
    simp only [List.cons_append, List.dropWhile_cons, ha c (by simp), if_true]
    exact ih (fun d hd => ha d (by simp [hd]))

theorem dropWhile_dropWhile {p : UInt8 → Bool} (a : Bytes) : (a.dropWhile p).dropWhile p = a.dropWhile p := by
  induction a with
  | nil => rfl
  | cons c a ih =>
    by_cases h : p c = true
    · simp [List.dropWhile_cons, h, ih]
    · simp [List.dropWhile_cons, h]

theorem length_dropWhile_le (p : UInt8 → Bool) (a : Bytes) : (a.dropWhile p).length ≤ a.length := by
  induction a with
  | nil => simp
  | cons c a ih =>
    rw [List.dropWhile_cons]; split
    · simp; omega
    · simp

theorem skipNewLine_length (t : Bytes) : (skipNewLine t).length ≤ t.length - 1 := by
  unfold skipNewLine; split <;> simp <;> omega

/-! ## Progress -/

theorem loadComment_length (b : Bool) : ∀ n t, (loadComment b n t).length ≤ t.length := by
  intro n
  induction n with
  | zero => intro t; simp [loadComment]
  | succ n ih =>
    intro t
    simp only [loadComment]
    split
    · split
      · simp
      · have := ih (skipNewLine (t.dropWhile fun c => !isNL c))
        have := skipNewLine_length (t.dropWhile fun c => !isNL c)
        have := length_dropWhile_le (fun c => !isNL c) t
        omega
    · split
      · split
        · have := ih (t.dropWhile isSp)
          have := length_dropWhile_le isSp t
          omega
        · simp
      · simp

theorem isNL_of_comment {c : UInt8} (h : isComment c = true) : isNL c = false := by
  revert h; revert c; apply forall_uint8; decide +kernel

theorem isSp_of_comment {c : UInt8} (h : isComment c = true) : isSp c = false := by
  revert h; revert c; apply forall_uint8; decide +kernel

theorem isSp_of_isNL {c : UInt8} (h : isNL c = true) : isSp c = true := by
  revert h; revert c; apply forall_uint8; decide +kernel

theorem isNL_false_of_not_sp {c : UInt8} (h : isSp c = false) : isNL c = false := by
  revert h; revert c; apply forall_uint8; decide +kernel

theorem loadComment_progress {b : Bool} {n : Nat} {c : UInt8} {r : Bytes} (h : isComment c = true) (hn : 0 < n) :
    (loadComment b n (c :: r)).length ≤ r.length := by
  match n, hn with
  | n + 1, _ =>
    simp only [loadComment, startsComment, h, if_true]
    have e : (c :: r).dropWhile (fun c => !isNL c) = r.dropWhile (fun c => !isNL c) := by
      simp [List.dropWhile_cons, isNL_of_comment h]
    rw [e]
    split
    · simp
    · have := loadComment_length b n (skipNewLine (r.dropWhile fun c => !isNL c))
      have := skipNewLine_length (r.dropWhile fun c => !isNL c)
      have := length_dropWhile_le (fun c => !isNL c) r
      omega

/-- The rest after one round is shorter. -/
def Step.rest : Step → Bytes
  | .done => []
  | .skip r | .badHeader r | .header _ r | .entry _ _ r => r

theorem dropWhile_length_lt {p : UInt8 → Bool} {c : UInt8} {r : Bytes} (h : p c = true) :
    ((c :: r).dropWhile p).length ≤ r.length := by
  rw [List.dropWhile_cons, if_pos h]; exact length_dropWhile_le p r

theorem step_progress (t : Bytes) : step t = .done ∨ (step t).rest.length < t.length := by
  have hlen := length_dropWhile_le isSp t
  unfold step
  split
  · exact .inl rfl
  · rename_i c r hd
    rw [hd] at hlen
    simp only [List.length_cons] at hlen
    have hsp : isSp c = false := by
      cases h : isSp c with
      | false => rfl
      | true =>
        have := dropWhile_dropWhile (p := isSp) t
        rw [hd, List.dropWhile_cons, if_pos h] at this
        have h1 := congrArg List.length this
        have h2 := length_dropWhile_le isSp r
        simp at h1; omega
    have hnl := isNL_false_of_not_sp hsp
    right
    split
    · rename_i hc
      have := loadComment_progress (b := true) (n := (c :: r).length) (r := r) hc (by simp)
      simp only [Step.rest]; omega
    · split
      · -- header
        have h1 := length_dropWhile_le isSp r
        have h2 := length_dropWhile_le (fun c => c != 93 && !isNL c) (r.dropWhile isSp)
        dsimp only
        split
        · rename_i r3 he
          have h3 := length_dropWhile_le (fun c => !isNL c) r3
          rw [he] at h2
          simp only [Step.rest, List.length_cons] at *
          omega
        · simp only [Step.rest]; omega
      · dsimp only
        split
        · rename_i r2 he
          have h2 := length_dropWhile_le (fun c => c != 61 && !isNL c) (c :: r)
          rw [he] at h2
          simp only [List.length_cons] at h2
          split
          · rename_i hk
            have : c = 61 := by
              by_cases hc : c = 61
              · exact hc
              · simp [List.takeWhile_cons, hc, hnl] at hk
            have h3 : ((61 :: r2).dropWhile (fun c => !isNL c)).length ≤ r2.length := dropWhile_length_lt (by decide)
            simp only [Step.rest]; omega
          · have h3 := length_dropWhile_le (fun c => !isNL c && isSp c) r2
            have h4 := length_dropWhile_le (fun c => !isNL c) (r2.dropWhile (fun c => !isNL c && isSp c))
            have h5 := skipNewLine_length ((r2.dropWhile (fun c => !isNL c && isSp c)).dropWhile (fun c => !isNL c))
            simp only [Step.rest]; omega
        · rename_i hne
          by_cases hc : c = 61
          · subst hc
            exfalso
            exact hne r (by simp [List.dropWhile_cons])
          · have h3 : ((c :: r).dropWhile (fun c => c != 61 && !isNL c)).length ≤ r.length :=
              dropWhile_length_lt (by simp [hc, hnl])
            simp only [Step.rest]; omega

/-- Enough fuel is as good as any. -/
theorem items_fuel : ∀ n t, t.length < n → ∀ m, t.length < m → itemsAux n t = itemsAux m t := by
  intro n
  induction n with
  | zero => intro t h; omega
  | succ n ih =>
    intro t hn m hm
    match m, hm with
    | m + 1, hm =>
      simp only [itemsAux]
      rcases step_progress t with h | h
      · rw [h]
      · cases hs : step t with
        | done => rfl
        | skip r => rw [hs] at h; exact ih r (by simp only [Step.rest] at h; omega) m (by simp only [Step.rest] at h; omega)
        | badHeader r =>
          rw [hs] at h
          exact congrArg _ (ih r (by simp only [Step.rest] at h; omega) m (by simp only [Step.rest] at h; omega))
        | header a r =>
          rw [hs] at h
          exact congrArg _ (ih r (by simp only [Step.rest] at h; omega) m (by simp only [Step.rest] at h; omega))
        | entry a b r =>
          rw [hs] at h
          exact congrArg _ (ih r (by simp only [Step.rest] at h; omega) m (by simp only [Step.rest] at h; omega))

/-- All items of a text, without a fuel argument. -/
def parse (t : Bytes) : List Item := itemsAux (t.length + 1) t

theorem parse_eq (t : Bytes) : parse t = match step t with
    | .done => []
    | .skip r => parse r
    | .badHeader r => .badHeader :: parse r
    | .header n r => .header n :: parse r
    | .entry k v r => .entry k v :: parse r := by
  show itemsAux (t.length + 1) t = _
  simp only [itemsAux]
  rcases step_progress t with h | h
  · rw [h]
  · cases hs : step t with
    | done => rfl
    | skip r => rw [hs] at h; exact items_fuel _ r h _ (by omega)
    | badHeader r => rw [hs] at h; exact congrArg _ (items_fuel _ r h _ (by omega))
    | header a r => rw [hs] at h; exact congrArg _ (items_fuel _ r h _ (by omega))
    | entry a b r => rw [hs] at h; exact congrArg _ (items_fuel _ r h _ (by omega))

theorem step_dropSpace (t : Bytes) : step (t.dropWhile isSp) = step t := by
  unfold step; rw [dropWhile_dropWhile]

theorem parse_dropSpace (t : Bytes) : parse (t.dropWhile isSp) = parse t := by
  rw [parse_eq, step_dropSpace, ← parse_eq]

theorem step_space {a t : Bytes} (ha : ∀ c ∈ a, isSp c = true) : step (a ++ t) = step t := by
  unfold step; rw [dropWhile_append_all ha]

theorem parse_space {a t : Bytes} (ha : ∀ c ∈ a, isSp c = true) : parse (a ++ t) = parse t := by
  rw [parse_eq, step_space ha, ← parse_eq]

theorem parse_nil : parse [] = [] := rfl

theorem step_comment {c : UInt8} {r : Bytes} (h : isComment c = true) :
    step (c :: r) = .skip (loadComment true (c :: r).length (c :: r)) := by
  have : (c :: r).dropWhile isSp = c :: r := by simp [List.dropWhile_cons, isSp_of_comment h]
  unfold step; rw [this]; simp [h]

theorem loadComment_step {b : Bool} {n : Nat} {c : UInt8} {r : Bytes} (h : isComment c = true) :
    loadComment b (n + 1) (c :: r) =
      if r.dropWhile (fun c => !isNL c) = [] then [] else loadComment b n (skipNewLine (r.dropWhile fun c => !isNL c)) := by
  have e : (c :: r).dropWhile (fun c => !isNL c) = r.dropWhile (fun c => !isNL c) := by
    simp [List.dropWhile_cons, isNL_of_comment h]
  simp only [loadComment, startsComment, h, if_true, e]

/-- Skipping comments never changes what is parsed. -/
theorem parse_loadComment : ∀ (k : Nat) (u : Bytes), u.length ≤ k → ∀ b n, parse (loadComment b n u) = parse u := by
  intro k
  induction k with
  | zero =>
    intro u hu b n
    have : u = [] := by cases u <;> simp_all
    subst this
    have := loadComment_length b n []
    have : loadComment b n [] = [] := List.length_eq_zero_iff.mp (by simpa using this)
    rw [this]
  | succ k ih =>
    intro u hu b n
    match n with
    | 0 => rfl
    | n + 1 =>
      by_cases hs : startsComment u = true
      · cases u with
        | nil => simp [startsComment] at hs
        | cons c r =>
          have hc : isComment c = true := hs
          have hr : parse (c :: r) = parse (loadComment true (r.length + 1) (c :: r)) := by
            rw [parse_eq (c :: r), step_comment hc]; rfl
          rw [hr, loadComment_step hc, loadComment_step hc]
          split
          · rfl
          · have h1 := skipNewLine_length (r.dropWhile fun c => !isNL c)
            have h2 := length_dropWhile_le (fun c => !isNL c) r
            have h3 : (skipNewLine (r.dropWhile fun c => !isNL c)).length ≤ k := by
              simp at hu; omega
            rw [ih _ h3, ih _ h3]
      · simp only [loadComment, hs]
        simp only [Bool.false_eq_true, if_false]
        split
        · split
          · rename_i hp
            have hl := length_dropWhile_le isSp u
            have : u.dropWhile isSp ≠ u := by
              intro h; rw [h] at hp; exact hs hp
            have hlt : (u.dropWhile isSp).length ≤ k := by
              cases u with
              | nil => simp [startsComment] at hp
              | cons c r =>
                rw [List.dropWhile_cons] at this ⊢
                split
                · have := length_dropWhile_le isSp r
                  simp at hu; omega
                · rename_i hc; simp [hc] at this
            rw [ih _ hlt, parse_dropSpace]
          · rfl
        · rfl

theorem items_eq_parse (s : Bytes) : items s = parse (cut s) := by
  show parse (loadComment false (cut s).length (cut s)) = _
  exact parse_loadComment _ _ (Nat.le_refl _) _ _

end Licensecc.Ini
