import Verif.Lemmas.IniParse
/-!
# C65, C75: the whole parser in memory, for every setting of the options
-/
namespace Licensecc.IniParse
open Ini hiding loadComment
open IniMem hiding findEntry

/-- The two lists of what is found differ only in values. -/
theorem every_names (o : IniStore.Options) : ∀ (n : Nat) (place : IniStore.Place) (c : Option Bytes) (t : Bytes),
    (IniStore.findEvery o false n place c t).map (fun f => (f.sect, f.kv.map (·.1), f.comment))
      = (IniStore.findEvery o true n place c t).map (fun f => (f.sect, f.kv.map (·.1), f.comment)) := by
  intro n
  induction n with
  | zero => intro place c t; rfl
  | succ n ih =>
    intro place c t
    rw [IniStore.findEvery, IniStore.findEvery]
    simp only
    split
    · exact ih _ _ _
    · cases step (t.dropWhile isSp) with
      | done => rfl
      | skip r => exact ih _ _ _
      | badHeader r => exact ih _ _ _
      | header a r => simp only [List.map_cons, ih]
      | entry a v r =>
        simp only
        split
        · cases IniStore.taggedText (v.drop 3) (r.length + 1) [] r with
          | none => rfl
          | some p =>
            obtain ⟨_ | w, r'⟩ := p
            · simp only [List.map_cons, ih, Option.map_some]
            · simp only [List.map_cons, ih, Option.map_some]
        · simp only [List.map_cons, ih]

/-- **C65_parse.**  For every setting of the options, every object and every text, the parser reads and writes only inside the one array it was given
    (`parse` is not `ub`), and every pointer it hands out is a C string in it both when `AddEntry` is called and when all is parsed.  The strings at the
    first moment are what a load that copies them stores, the strings at the second what a load that keeps the array stores.  Between the two moments
    no name of a section or key and no comment changes. -/
theorem C65_parse (o : IniStore.Options) (st : IniStore.Store) (s : Bytes) : ∃ r final, parse o st.fileComment.isSome s = .ok r
    ∧ r.mem.length = (IniStore.dropMark o s).length + 1
    ∧ r.entries.map (fun e => strings r.mem e.1) = final.map .ok
    ∧ cstrOpt r.mem r.filePtr = .ok r.fileSeen
    ∧ IniStore.loadEvery o true s st = IniStore.addAll o (r.entries.map (·.2)) { st with fileComment := st.fileComment.or r.fileSeen }
    ∧ IniStore.loadEvery o false s st = IniStore.addAll o final { st with fileComment := st.fileComment.or r.fileSeen }
    ∧ final.map (fun f => (f.sect, f.kv.map (·.1), f.comment)) = r.entries.map (fun e => (e.2.sect, e.2.kv.map (·.1), e.2.comment)) := by
  have hcut := cut_at (IniStore.dropMark o s)
  have hlen : (cut (IniStore.dropMark o s)).length ≤ (IniStore.dropMark o s).length := length_takeWhile_le _ _
  have key : ∃ m q b cp, (if st.fileComment.isSome then Outcome.ok (IniStore.dropMark o s ++ [0], 0, none) else loadComment false (IniStore.dropMark o s ++ [0]) 0)
        = .ok (m, q, cp) ∧ At m q (IniStore.findFileComment st (cut (IniStore.dropMark o s))).2 ∧ m.length = (IniStore.dropMark o s).length + 1
        ∧ ((IniStore.findFileComment st (cut (IniStore.dropMark o s))).2 = [] ∨ b ≤ q)
        ∧ ∃ c, ComP m b cp c ∧ (IniStore.findFileComment st (cut (IniStore.dropMark o s))).1 = st.fileComment.or c
        ∧ (IniStore.findFileComment st (cut (IniStore.dropMark o s))).2.length ≤ (IniStore.dropMark o s).length := by
    unfold IniStore.findFileComment
    cases hfc : st.fileComment with
    | some c => exact ⟨_, 0, 0, none, rfl, hcut, by simp, .inr (Nat.le_refl _), none, .inl ⟨rfl, rfl⟩, rfl, hlen⟩
    | none =>
      cases hs : startsComment (cut (IniStore.dropMark o s)) with
      | false =>
        refine ⟨_, 0, 0, none, ?_, hcut, by simp, .inr (Nat.le_refl _), none, .inl ⟨rfl, rfl⟩, rfl, hlen⟩
        exact loadComment_none hcut hs
      | true =>
        obtain ⟨m', q, b, a1, a2, a3, a4, a5, a6⟩ := loadComment_text false hcut hs
        refine ⟨m', q, b, some 0, a1, a2, by rw [a3.1]; simp, a6, _, .inr ⟨0, _, rfl, rfl, a5⟩, rfl, ?_⟩
        have h1 := a2.lt
        rw [a3.1, List.length_append, List.length_singleton] at h1
        simp only [if_true]
        omega
  obtain ⟨m, q, b, cp, k1, k2, k3, k4, c, k5, k6, k7⟩ := key
  obtain ⟨m', l, i1, i2, i3, i4, _⟩ := parseLoop_text o ((IniStore.dropMark o s).length + 2) m q _ b none [] k2 (.inl ⟨rfl, rfl⟩) k4 (by omega)
  refine ⟨⟨m', cp, c, l⟩, _, ?_, by rw [i2.1, k3], i4, cstrOpt_com (k5.keeps i2 (Nat.le_refl _)), ?_, ?_, ?_⟩
  · unfold parse
    simp only
    have : ∀ {α} (x : Bytes × Nat × Option Nat → Outcome α), (if st.fileComment.isSome = true then x (IniStore.dropMark o s ++ [0], 0, none)
        else (loadComment false (IniStore.dropMark o s ++ [0]) 0).bind x) = x (m, q, cp) := by
      intro α x
      split
      · rename_i h; rw [if_pos h] at k1; cases k1; rfl
      · rename_i h; rw [if_neg h] at k1; rw [k1]; rfl
    refine Eq.trans (this _) ?_
    simp only
    rw [cstrOpt_com k5, Outcome.ok_bind, i1, Outcome.ok_bind]
  · unfold IniStore.loadEvery
    simp only
    rw [k6, i3]; rfl
  · unfold IniStore.loadEvery
    simp only
    rw [k6]; rfl
  · have := every_names o ((IniStore.findFileComment st (cut (IniStore.dropMark o s))).2.length + 1) (.named []) none
      (IniStore.findFileComment st (cut (IniStore.dropMark o s))).2
    unfold every at i3 ⊢
    rw [this, ← i3, List.map_map]
    rfl

/-- What `parse` finds: the strings when `AddEntry` is called, and at the end. -/
private def views (o : IniStore.Options) (s : Bytes) : Option (List IniStore.Found × List (Option IniStore.Found)) :=
  match parse o false s with
  | .ok r => some (r.entries.map (·.2), r.entries.map fun e => match strings r.mem e.1 with
    | .ok f => some f
    | _ => none)
  | _ => none

/-- A comment of the file, a header, a comment, a value of two lines with its tag, and a last key without a line break. -/
example : views { multiLine := true } b!";top\n\n[a]\n;x\nk=<<<E\none\r\ntwo\nE\nl=1" = some
    ([⟨b!"a", none, none⟩, ⟨b!"a", some (b!"k", b!"one\ntwo"), some b!";x"⟩, ⟨b!"a", some (b!"l", b!"1"), none⟩],
     [some ⟨b!"a", none, none⟩, some ⟨b!"a", some (b!"k", b!"one\ntwo"), some b!";x"⟩, some ⟨b!"a", some (b!"l", b!"1"), none⟩]) := by decide +kernel

/-- A value that begins with its own tag has no end of its own: the two moments differ. -/
example : views { multiLine := true } b!"k=<<<E\nE\nl=1\n" = some
    ([⟨[], some (b!"k", b!"E\nl=1\n"), none⟩, ⟨[], some (b!"l", b!"1"), none⟩],
     [some ⟨[], some (b!"k", b!"E\nl"), none⟩, some ⟨[], some (b!"l", b!"1"), none⟩]) := by decide +kernel

/-- A header without `]`: the name of the section goes on to the end of the next key. -/
example : views {} b!"[a\nk=1\n" = some
    ([⟨b!"a\nk", some (b!"k", b!"1"), none⟩], [some ⟨b!"a\nk", some (b!"k", b!"1"), none⟩]) := by decide +kernel

end Licensecc.IniParse
