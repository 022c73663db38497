import Verif.Lemmas.IniRoundTrip
/-!
# What can be found in a text
-/
namespace Licensecc.IniStore
open Ini hiding getValue getAllKeys getSectionSize setKey load findSection addSection
open Spec Spec.IniStore

/-! ## One line -/

theorem mem_takeWhile {p : UInt8 → Bool} {t : Bytes} {x : UInt8} (h : x ∈ t.takeWhile p) : x ∈ t ∧ p x = true := by
  induction t with
  | nil => cases h
  | cons c t ih =>
    rw [List.takeWhile_cons] at h
    split at h
    · rename_i hc
      rcases List.mem_cons.mp h with rfl | h
      · exact ⟨by simp, hc⟩
      · exact ⟨List.mem_cons_of_mem _ (ih h).1, (ih h).2⟩
    · cases h

theorem mem_dropWhile {p : UInt8 → Bool} {t : Bytes} {x : UInt8} (h : x ∈ t.dropWhile p) : x ∈ t :=
  (List.dropWhile_suffix p).subset h

theorem mem_skipNewLine {t : Bytes} {x : UInt8} (h : x ∈ skipNewLine t) : x ∈ t := by
  unfold skipNewLine at h
  split at h
  · simp [h]
  · simp [h]
  · exact h

theorem mem_trimRight {t : Bytes} {x : UInt8} (h : x ∈ trimRight t) : x ∈ t := by
  unfold trimRight at h
  rw [List.mem_reverse] at h
  exact List.mem_reverse.mp (mem_dropWhile h)

theorem trimRight_last {t : Bytes} {x : UInt8} (h : (trimRight t).getLast? = some x) : isSp x = false := by
  unfold trimRight at h
  rw [List.getLast?_reverse] at h
  have := List.head?_dropWhile_not (p := isSp) t.reverse
  rw [h] at this
  simpa using this

theorem trimRight_prefix (t : Bytes) : trimRight t <+: t := by
  unfold trimRight
  obtain ⟨a, ha⟩ := List.dropWhile_suffix isSp (l := t.reverse)
  refine ⟨a.reverse, ?_⟩
  rw [← List.reverse_append, ha, List.reverse_reverse]

theorem trimRight_head {t : Bytes} {x : UInt8} (h : (trimRight t).head? = some x) : t.head? = some x := by
  obtain ⟨a, ha⟩ := trimRight_prefix t
  cases hh : trimRight t with
  | nil => rw [hh] at h; cases h
  | cons y r =>
    rw [hh] at h ha
    rw [← ha]
    exact h

theorem trimRight_cons {c : UInt8} {r : Bytes} (h : isSp c = false) : ∃ r', trimRight (c :: r) = c :: r' := by
  cases hh : trimRight (c :: r) with
  | nil =>
    unfold trimRight at hh
    rw [List.reverse_eq_nil_iff] at hh
    have h1 := List.takeWhile_append_dropWhile (p := isSp) (l := (c :: r).reverse)
    rw [hh, List.append_nil] at h1
    have h2 : c ∈ (c :: r).reverse.takeWhile isSp := by rw [h1]; simp
    have := (mem_takeWhile h2).2
    rw [h] at this; cases this
  | cons x r' =>
    have := trimRight_head (t := c :: r) (x := x) (by rw [hh]; rfl)
    simp only [List.head?_cons, Option.some.injEq] at this
    rw [← this]
    exact ⟨r', rfl⟩

theorem sp_32 {x : UInt8} (h : isSp x = false) : x ≠ 32 ∧ x ≠ 9 := by
  constructor <;> (rintro rfl; cases h)

theorem plain_trimRight {t : Bytes} (h0 : 0 ∉ t) (h1 : ∀ x ∈ t, isNL x = false) (h2 : ∀ x, t.head? = some x → isSp x = false) : Plain (trimRight t) := by
  refine ⟨?_, ?_⟩
  · intro x hx
    have hx := mem_trimRight hx
    have := h1 x hx
    refine ⟨?_, ?_, fun hh => h0 (hh ▸ hx)⟩
    · rintro rfl; cases this
    · rintro rfl; cases this
  · refine ⟨?_, ?_⟩
    · intro x hx
      exact sp_32 (h2 x (trimRight_head hx))
    · intro x hx
      exact sp_32 (trimRight_last hx)

/-- The text behind what a round finds is a piece of the text. -/
theorem step_rest_mem {t : Bytes} {x : UInt8} (h : x ∈ (step t).rest) : x ∈ t := by
  unfold step at h
  split at h
  · cases h
  · rename_i c r hd
    have hsub : ∀ y ∈ c :: r, y ∈ t := fun y hy => mem_dropWhile (p := isSp) (by rw [hd]; exact hy)
    split at h
    · refine hsub x ?_
      have : ∀ n u, ∀ y ∈ loadComment true n u, y ∈ u := by
        intro n
        induction n with
        | zero => intro u y hy; exact hy
        | succ n ih =>
          intro u y hy
          rw [loadComment] at hy
          simp only at hy
          split at hy
          · split at hy
            · cases hy
            · exact mem_dropWhile (mem_skipNewLine (ih _ _ hy))
          · simp only [if_true] at hy
            split at hy
            · exact mem_dropWhile (ih _ _ hy)
            · exact hy
      exact this _ _ _ h
    · split at h
      · dsimp only at h
        split at h
        · rename_i r3 he
          refine hsub x (List.mem_cons_of_mem _ (mem_dropWhile (p := isSp) (mem_dropWhile (p := fun c => c != 93 && !isNL c) ?_)))
          rw [he]
          exact List.mem_cons_of_mem _ (mem_dropWhile h)
        · exact hsub x (List.mem_cons_of_mem _ (mem_dropWhile (p := isSp) (mem_dropWhile h)))
      · dsimp only at h
        split at h
        · rename_i r2 he
          refine hsub x (mem_dropWhile (p := fun c => c != 61 && !isNL c) ?_)
          rw [he]
          split at h
          · simp only [Step.rest] at h
            exact mem_dropWhile h
          · exact List.mem_cons_of_mem _ (mem_dropWhile (mem_dropWhile (mem_skipNewLine h)))
        · simp only [Step.rest] at h
          exact hsub x (mem_dropWhile h)

/-- The names of sections found can be written. -/
theorem step_header_ok {t n r : Bytes} (h0 : 0 ∉ t) (h : step t = .header n r) : SectionNameOk n := by
  unfold step at h
  split at h
  · cases h
  · rename_i c r' hd
    have hsub : ∀ y ∈ c :: r', y ∈ t := fun y hy => mem_dropWhile (p := isSp) (by rw [hd]; exact hy)
    split at h
    · cases h
    · split at h
      · dsimp only at h
        split at h
        · rename_i r3 he
          cases h
          have hmem : ∀ x ∈ (r'.dropWhile isSp).takeWhile (fun c => c != 93 && !isNL c), x ∈ t ∧ x ≠ 93 ∧ isNL x = false := by
            intro x hx
            have h1 := mem_takeWhile hx
            refine ⟨hsub x (List.mem_cons_of_mem _ (mem_dropWhile h1.1)), ?_⟩
            simpa using h1.2
          refine ⟨plain_trimRight (fun hh => h0 (hmem 0 hh).1) (fun x hx => (hmem x hx).2.2) ?_, ?_⟩
          · intro x hx
            have h1 : (r'.dropWhile isSp).head? = some x := by
              cases hr : r'.dropWhile isSp with
              | nil => rw [hr] at hx; cases hx
              | cons y z =>
                rw [hr, List.takeWhile_cons] at hx
                split at hx
                · exact hx
                · cases hx
            have := List.head?_dropWhile_not (p := isSp) r'
            rw [h1] at this
            simpa using this
          · intro hh
            exact (hmem 93 (mem_trimRight hh)).2.1 rfl
        · cases h
      · dsimp only at h
        split at h
        · split at h <;> cases h
        · cases h

/-- The keys and values found can be written. -/
theorem step_entry_ok {t k v r : Bytes} (h0 : 0 ∉ t) (h : step t = .entry k v r) : KeyOk k ∧ Plain v := by
  unfold step at h
  split at h
  · cases h
  · rename_i c r' hd
    have hsub : ∀ y ∈ c :: r', y ∈ t := fun y hy => mem_dropWhile (p := isSp) (by rw [hd]; exact hy)
    have hsp : isSp c = false := by
      have := List.head?_dropWhile_not (p := isSp) t
      rw [hd] at this
      simpa using this
    split at h
    · cases h
    · rename_i hcom
      split at h
      · dsimp only at h
        split at h <;> cases h
      · rename_i h91
        dsimp only at h
        split at h
        · rename_i r2 he
          split at h
          · cases h
          · rename_i hne
            cases h
            have hkey : ∀ x ∈ (c :: r').takeWhile (fun c => c != 61 && !isNL c), x ∈ t ∧ x ≠ 61 ∧ isNL x = false := by
              intro x hx
              have h1 := mem_takeWhile hx
              refine ⟨hsub x h1.1, ?_⟩
              simpa using h1.2
            have hcons : ∃ q, (c :: r').takeWhile (fun c => c != 61 && !isNL c) = c :: q := by
              rw [List.takeWhile_cons] at hne ⊢
              split
              · exact ⟨_, rfl⟩
              · rename_i hf; rw [if_neg hf] at hne; exact absurd rfl hne
            obtain ⟨q, hq⟩ := hcons
            have hr2 : ∀ x ∈ r2, x ∈ t := fun x hx => hsub x (mem_dropWhile (p := fun c => c != 61 && !isNL c) (by rw [he]; exact List.mem_cons_of_mem _ hx))
            refine ⟨⟨plain_trimRight (fun hh => h0 (hkey 0 hh).1) (fun x hx => (hkey x hx).2.2) ?_, ?_, ?_⟩, plain_trimRight ?_ ?_ ?_⟩
            · intro x hx
              rw [hq] at hx
              cases hx
              exact hsp
            · intro hh
              exact (hkey 61 (mem_trimRight hh)).2.1 rfl
            · rw [hq]
              obtain ⟨q', hq'⟩ := trimRight_cons (r := q) hsp
              refine ⟨c, q', hq', ?_, ?_, h91⟩
              · rintro rfl; exact hcom rfl
              · rintro rfl; exact hcom rfl
            · intro hh
              exact h0 (hr2 0 (mem_dropWhile (mem_takeWhile hh).1))
            · intro x hx
              simpa using (mem_takeWhile hx).2
            · intro x hx
              have h1 : (r2.dropWhile (fun c => !isNL c && isSp c)).head? = some x ∧ isNL x = false := by
                cases hr : r2.dropWhile (fun c => !isNL c && isSp c) with
                | nil => rw [hr] at hx; cases hx
                | cons y z =>
                  rw [hr, List.takeWhile_cons] at hx
                  split at hx
                  · rename_i hy
                    cases hx
                    exact ⟨rfl, by simpa using hy⟩
                  · cases hx
              have := List.head?_dropWhile_not (p := fun c => !isNL c && isSp c) r2
              rw [h1.1] at this
              simpa [h1.2] using this
        · cases h

/-! ## Comments -/

theorem linesOf_go_append {a : Bytes} (h : 10 ∉ a) (t : Bytes) : linesOf.go (a ++ 10 :: t) = a :: linesOf.go t := by
  induction a with
  | nil => simp [linesOf.go]
  | cons c a ih =>
    have hc : c ≠ 10 := fun hh => h (by simp [hh])
    rw [List.cons_append, linesOf.go, if_neg hc, ih (fun hh => h (List.mem_cons_of_mem _ hh))]

theorem linesOf_go_line {a : Bytes} (h : 10 ∉ a) : linesOf.go a = [a] := by
  induction a with
  | nil => rfl
  | cons c a ih =>
    have hc : c ≠ 10 := fun hh => h (by simp [hh])
    rw [linesOf.go, if_neg hc, ih (fun hh => h (List.mem_cons_of_mem _ hh))]

theorem linesOf_go_joinLines : ∀ {ls : List Bytes}, ls ≠ [] → (∀ l ∈ ls, 10 ∉ l) → linesOf.go (joinLines ls) = ls
  | [], h, _ => absurd rfl h
  | [l], _, h => by
    show linesOf.go l = [l]
    exact linesOf_go_line (h l (by simp))
  | l :: m :: ls, _, h => by
    rw [joinLines_cons (by simp), linesOf_go_append (h l (by simp)), linesOf_go_joinLines (by simp) (fun x hx => h x (List.mem_cons_of_mem _ hx))]

theorem linesOf_joinLines {ls : List Bytes} (hne : joinLines ls ≠ []) (h : ∀ l ∈ ls, 10 ∉ l) : linesOf (joinLines ls) = ls := by
  unfold linesOf
  rw [if_neg hne]
  refine linesOf_go_joinLines ?_ h
  rintro rfl
  exact hne rfl

/-- Lines each with its line break. -/
def closed (ls : List Bytes) : Bytes := ls.flatMap (· ++ [10])

theorem closed_append (a b : List Bytes) : closed (a ++ b) = closed a ++ closed b := by
  unfold closed; rw [List.flatMap_append]

theorem closed_join {ls : List Bytes} (l : Bytes) : closed ls ++ l = joinLines (ls ++ [l]) := by
  induction ls with
  | nil => rfl
  | cons m ls ih =>
    rw [List.cons_append, joinLines_cons (by simp), ← ih]
    simp [closed]

theorem closed_dropLast {ls : List Bytes} : (closed ls).dropLast = joinLines ls := by
  rcases List.eq_nil_or_concat ls with rfl | ⟨ms, l, rfl⟩
  · rfl
  · rw [List.concat_eq_append, ← closed_join, closed_append]
    have : closed [l] = l ++ [10] := by simp [closed]
    rw [this, ← List.append_assoc, List.dropLast_append_of_ne_nil (by simp)]
    simp

theorem closed_replicate (n : Nat) : closed (List.replicate n []) = List.replicate n 10 := by
  induction n with
  | zero => rfl
  | succ n ih => rw [List.replicate_succ, List.replicate_succ, ← ih]; rfl

theorem commentLine_take {t : Bytes} (h0 : 0 ∉ t) (h : startsComment t = true) : CommentLine (t.takeWhile fun c => !isNL c) := by
  refine ⟨?_, ?_⟩
  · intro x hx
    obtain ⟨h1, h2⟩ := mem_takeWhile hx
    have h2 : isNL x = false := by simpa using h2
    refine ⟨?_, ?_, fun hh => h0 (hh ▸ h1)⟩
    · rintro rfl; cases h2
    · rintro rfl; cases h2
  · cases t with
    | nil => cases h
    | cons c r =>
      have hc : isComment c = true := h
      rw [List.takeWhile_cons, if_pos (by rw [isNL_of_comment hc]; rfl)]
      refine ⟨c, _, rfl, ?_⟩
      unfold isComment at hc
      simpa using hc

/-- A comment that was found: its lines. -/
theorem ctext_found (b : Bool) : ∀ (n : Nat) (t : Bytes), t.length ≤ n → 0 ∉ t → ∀ ls : List Bytes, (∀ l ∈ ls, (l = [] ∧ b = true) ∨ CommentLine l) →
    (startsComment t = true ∨ ∃ l, ls.getLast? = some l ∧ CommentLine l) →
    ∃ more, (ctext b (closed ls) t).1 = joinLines (ls ++ more) ∧ (∀ l ∈ ls ++ more, (l = [] ∧ b = true) ∨ CommentLine l)
      ∧ (∃ l, (ls ++ more).getLast? = some l ∧ CommentLine l) ∧ (startsComment t = true → ∃ l, more.head? = some l ∧ CommentLine l)
      ∧ ∀ x ∈ (ctext b (closed ls) t).2, x ∈ t := by
  intro n
  induction n with
  | zero =>
    intro t ht h0 ls hls hst
    have : t = [] := List.eq_nil_of_length_eq_zero (by omega)
    subst this
    have hlast : ∃ l, ls.getLast? = some l ∧ CommentLine l := by
      rcases hst with h | h
      · cases h
      · exact h
    refine ⟨[], ?_, by simpa using hls, by simpa using hlast, (by intro h; cases h), ?_⟩
    · rw [ctext_eq, List.append_nil, ← closed_dropLast]
      cases b <;> rfl
    · rw [ctext_eq]
      cases b <;> simp [startsComment]
  | succ n ih =>
    intro t ht h0 ls hls hst
    rw [ctext_eq]
    by_cases hc : startsComment t = true
    · have hline := commentLine_take h0 hc
      rw [if_pos hc]
      split
      · refine ⟨[t.takeWhile fun c => !isNL c], closed_join _, ?_, ⟨_, List.getLast?_concat, hline⟩, fun _ => ⟨_, rfl, hline⟩, by simp⟩
        intro l hl
        rcases List.mem_append.mp hl with hl | hl
        · exact hls l hl
        · rw [List.mem_singleton.mp hl]; exact Or.inr hline
      · rename_i hr
        have h1 := length_dropWhile_le (fun c => !isNL c) t
        have h2 := skipNewLine_length (t.dropWhile fun c => !isNL c)
        have h3 : 0 < (t.dropWhile fun c => !isNL c).length := List.length_pos_iff.mpr hr
        have hsub : ∀ x ∈ skipNewLine (t.dropWhile fun c => !isNL c), x ∈ t := fun x hx => mem_dropWhile (mem_skipNewLine hx)
        have hcl : closed ls ++ (t.takeWhile fun c => !isNL c) ++ [10] = closed (ls ++ [t.takeWhile fun c => !isNL c]) := by
          rw [closed_append]; simp [closed]
        obtain ⟨more, e1, e2, e3, e4, e5⟩ := ih (skipNewLine (t.dropWhile fun c => !isNL c)) (by omega) (fun hh => h0 (hsub 0 hh)) (ls ++ [t.takeWhile fun c => !isNL c])
          (by
            intro l hl
            rcases List.mem_append.mp hl with hl | hl
            · exact hls l hl
            · rw [List.mem_singleton.mp hl]; exact Or.inr hline)
          (Or.inr ⟨_, List.getLast?_concat, hline⟩)
        rw [hcl]
        rw [List.append_assoc] at e1 e2 e3
        exact ⟨_, e1, e2, e3, fun _ => ⟨_, rfl, hline⟩, fun x hx => hsub x (e5 x hx)⟩
    · have hlast : ∃ l, ls.getLast? = some l ∧ CommentLine l := by
        rcases hst with h | h
        · exact absurd h hc
        · exact h
      have hdone : ∃ more, (closed ls).dropLast = joinLines (ls ++ more) ∧ (∀ l ∈ ls ++ more, (l = [] ∧ b = true) ∨ CommentLine l)
          ∧ (∃ l, (ls ++ more).getLast? = some l ∧ CommentLine l) ∧ (startsComment t = true → ∃ l, more.head? = some l ∧ CommentLine l) :=
        ⟨[], by rw [List.append_nil, closed_dropLast], by simpa using hls, by simpa using hlast, fun hh => absurd hh hc⟩
      rw [if_neg hc]
      by_cases hb : b = true
      · rw [if_pos hb]
        split
        · rename_i hp
          have h1 := length_dropWhile_le isSp t
          have h2 : (t.dropWhile isSp).length ≠ t.length := by
            intro he
            have := List.takeWhile_append_dropWhile (p := isSp) (l := t)
            have hlen := congrArg List.length this
            rw [List.length_append] at hlen
            have h0 : t.takeWhile isSp = [] := List.eq_nil_of_length_eq_zero (by omega)
            rw [h0, List.nil_append] at this
            rw [this] at hp
            exact hc hp
          have hsub : ∀ x ∈ t.dropWhile isSp, x ∈ t := fun x hx => mem_dropWhile hx
          obtain ⟨more, e1, e2, e3, e4, e5⟩ := ih (t.dropWhile isSp) (by omega) (fun hh => h0 (hsub 0 hh)) (ls ++ List.replicate (commentText.breaks (t.takeWhile isSp)) [])
            (by
              intro l hl
              rcases List.mem_append.mp hl with hl | hl
              · exact hls l hl
              · exact Or.inl ⟨(List.mem_replicate.mp hl).2, hb⟩)
            (Or.inl hp)
          rw [closed_append, closed_replicate] at e1 e5
          rw [List.append_assoc] at e1 e2 e3
          exact ⟨_, e1, e2, e3, fun hh => absurd hh hc, fun x hx => hsub x (e5 x hx)⟩
        · obtain ⟨more, e1, e2, e3, e4⟩ := hdone
          exact ⟨more, e1, e2, e3, e4, fun x hx => hx⟩
      · rw [if_neg hb]
        obtain ⟨more, e1, e2, e3, e4⟩ := hdone
        exact ⟨more, e1, e2, e3, e4, fun x hx => hx⟩

theorem commentLine_ten {l : Bytes} (h : CommentLine l) : 10 ∉ l := fun hh => (h.1 10 hh).1 rfl

theorem joinLines_ne {ls : List Bytes} (h : ∃ l, ls.head? = some l ∧ CommentLine l) : joinLines ls ≠ [] := by
  obtain ⟨l, hl, _, c, r, hc, _⟩ := h
  cases ls with
  | nil => cases hl
  | cons m ls =>
    cases hl
    cases ls with
    | nil => rw [hc]; simp [joinLines]
    | cons => rw [joinLines_cons (by simp), hc]; simp

/-- The comments found can be written. -/
theorem comment_ok {t : Bytes} (h0 : 0 ∉ t) (h : startsComment t = true) :
    CommentOk (commentText true t.length [] t).1 ∧ ∀ x ∈ (commentText true t.length [] t).2, x ∈ t := by
  rw [commentText_eq_ctext true h]
  obtain ⟨more, e1, e2, e3, e4, e5⟩ := ctext_found true _ t (Nat.le_refl _) h0 [] (by simp) (Or.inl h)
  have hcl : closed [] = [] := rfl
  rw [hcl, List.nil_append] at e1
  rw [hcl] at e5
  rw [List.nil_append] at e2 e3
  refine ⟨?_, e5⟩
  have hl : linesOf (ctext true [] t).1 = more := by
    rw [e1]
    refine linesOf_joinLines (joinLines_ne (e4 h)) ?_
    intro l hl
    rcases e2 l hl with h | h
    · rw [h.1]; simp
    · exact commentLine_ten h
  unfold CommentOk
  rw [hl]
  refine ⟨fun l hl => ?_, e4 h, e3⟩
  rcases e2 l hl with h | h
  · exact Or.inl h.1
  · exact Or.inr h

theorem fileComment_ok {t : Bytes} (h0 : 0 ∉ t) (h : startsComment t = true) :
    FileCommentOk (commentText false t.length [] t).1 ∧ ∀ x ∈ (commentText false t.length [] t).2, x ∈ t := by
  rw [commentText_eq_ctext false h]
  obtain ⟨more, e1, e2, e3, e4, e5⟩ := ctext_found false _ t (Nat.le_refl _) h0 [] (by simp) (Or.inl h)
  have hcl : closed [] = [] := rfl
  rw [hcl, List.nil_append] at e1
  rw [hcl] at e5
  rw [List.nil_append] at e2 e3
  refine ⟨?_, e5⟩
  have hl : linesOf (ctext false [] t).1 = more := by
    rw [e1]
    refine linesOf_joinLines (joinLines_ne (e4 h)) ?_
    intro l hl
    rcases e2 l hl with h | h
    · rw [h.1]; simp
    · exact commentLine_ten h
  unfold FileCommentOk
  rw [hl]
  refine ⟨by rw [e1]; exact joinLines_ne (e4 h), fun l hl => ?_⟩
  rcases e2 l hl with h | h
  · cases h.2
  · exact h

/-! ## The whole text -/

/-- What a finding is like. -/
def FoundOk (f : Found) : Prop :=
  SectionNameOk f.sect ∧ (∀ k v, f.kv = some (k, v) → KeyOk k ∧ Plain v) ∧ ∀ c, f.comment = some c → CommentOk c

theorem found_ok {o : Options} (hm : o.multiLine = false) : ∀ (n : Nat) (t : Bytes), t.length ≤ n → 0 ∉ t → ∀ sect c l, SectionNameOk sect →
    (∀ x, c = some x → CommentOk x) → found o sect c t = some l → ∀ f ∈ l, FoundOk f := by
  intro n
  induction n with
  | zero =>
    intro t ht h0 sect c l _ _ hl f hf
    have : t = [] := List.eq_nil_of_length_eq_zero (by omega)
    subst this
    rw [found_nil] at hl
    cases hl
    cases hf
  | succ n ih =>
    intro t ht h0 sect c l hs hc hl f hf
    have hlen := length_dropWhile_le isSp t
    have h0' : 0 ∉ t.dropWhile isSp := fun hh => h0 (mem_dropWhile hh)
    rw [found_eq] at hl
    split at hl
    · rename_i hcom
      have he : (commentText true (t.dropWhile isSp).length [] (t.dropWhile isSp)).2.length ≤ n := by
        rw [commentText_snd]
        cases hu : t.dropWhile isSp with
        | nil => rw [hu] at hcom; cases hcom
        | cons x r =>
          rw [hu] at hcom hlen
          have := loadComment_progress (b := true) (n := (x :: r).length) (r := r) (show isComment x = true from hcom) (by simp)
          rw [List.length_cons] at hlen
          omega
      have hok := comment_ok h0' hcom
      exact ih _ he (fun hh => h0' (hok.2 0 hh)) _ _ _ hs (fun x hx => by cases hx; exact hok.1) hl f hf
    · have hp := step_progress (t.dropWhile isSp)
      have hrest : 0 ∉ (step (t.dropWhile isSp)).rest := fun hh => h0' (step_rest_mem hh)
      split at hl
      · cases hl; cases hf
      · rename_i r hst
        rw [hst] at hp hrest
        have hr : r.length < (t.dropWhile isSp).length := by
          rcases hp with hp | hp
          · cases hp
          · exact hp
        exact ih r (by omega) hrest _ _ _ hs hc hl f hf
      · cases hl
      · rename_i name r hst
        have hok := step_header_ok h0' hst
        rw [hst] at hp hrest
        have hr : r.length < (t.dropWhile isSp).length := by
          rcases hp with hp | hp
          · cases hp
          · exact hp
        obtain ⟨l', hl', rfl⟩ := Option.map_eq_some_iff.mp hl
        rcases List.mem_cons.mp hf with rfl | hf
        · exact ⟨hok, by simp, hc⟩
        · exact ih r (by omega) hrest _ _ _ hok (by simp) hl' f hf
      · rename_i k v r hst
        have hok := step_entry_ok h0' hst
        rw [hst] at hp hrest
        have hr : r.length < (t.dropWhile isSp).length := by
          rcases hp with hp | hp
          · cases hp
          · exact hp
        simp only [hm, Bool.false_and, Bool.false_eq_true, if_false] at hl
        obtain ⟨l', hl', rfl⟩ := Option.map_eq_some_iff.mp hl
        rcases List.mem_cons.mp hf with rfl | hf
        · refine ⟨hs, ?_, hc⟩
          intro k' v' hkv
          cases hkv
          exact hok
        · exact ih r (by omega) hrest _ _ _ hs (by simp) hl' f hf

end Licensecc.IniStore
