import Verif.Lemmas.Ini
/-!
# The parser on rendered lines
-/
namespace Licensecc.Ini
open Licensecc.Spec

/-- `t` is empty or starts with a line break. -/
abbrev AtEol (t : Bytes) : Prop := Stops (fun c => !isNL c) t

theorem isSp_of_blank {s : Bytes} (h : Blank s) : ∀ c ∈ s, isSp c = true := by
  intro c hc; rcases h c hc with rfl | rfl <;> rfl
theorem isSp_of_iniSpace {s : Bytes} (h : IniSpace s) : ∀ c ∈ s, isSp c = true := by
  intro c hc; rcases h c hc with rfl | rfl | rfl | rfl <;> rfl
theorem not_isNL_of_blank {s : Bytes} (h : Blank s) : ∀ c ∈ s, isNL c = false := by
  intro c hc; rcases h c hc with rfl | rfl <;> rfl
theorem not_isNL_of_oneLine {s : Bytes} (h : OneLine s) : ∀ c ∈ s, isNL c = false := by
  intro c hc
  have := h c hc
  simp [isNL, this]
theorem isSp_false {c : UInt8} (h1 : c ≠ 32) (h2 : c ≠ 9) (h3 : isNL c = false) : isSp c = false := by
  simp [isNL] at h3
  simp [isSp, h1, h2, h3]

theorem parse_skipNewLine {t : Bytes} (h : AtEol t) : parse (skipNewLine t) = parse t := by
  cases t with
  | nil => rfl
  | cons c r =>
    have hc : isNL c = true := by simpa using h c rfl
    have hsp := isSp_of_isNL hc
    have h1 : parse (c :: r) = parse r := parse_space (a := [c]) (by simpa using hsp)
    unfold skipNewLine
    split
    · rename_i t' heq
      simp at heq
      rw [h1, heq.2]
      exact (parse_space (a := [10]) (by simp [isSp])).symm
    · rename_i heq
      simp at heq
      rw [h1, heq.2]
    · rename_i heq; simp at heq

theorem trimRight_append {s a : Bytes} (hs : ∀ c, s.getLast? = some c → isSp c = false) (ha : ∀ c ∈ a, isSp c = true) :
    trimRight (s ++ a) = s := by
  unfold trimRight
  rw [List.reverse_append, dropWhile_append_stops (by simpa using ha), List.reverse_reverse]
  intro c hc
  rw [List.head?_reverse] at hc
  exact hs c hc

theorem getLast_not_sp {s : Bytes} (h1 : Trimmed s) (h2 : OneLine s) : ∀ c, s.getLast? = some c → isSp c = false := by
  intro c hc
  have := h1.2 c hc
  exact isSp_false this.1 this.2 (not_isNL_of_oneLine h2 c (List.mem_of_getLast? hc))

theorem head_not_sp {s : Bytes} (h1 : Trimmed s) (h2 : OneLine s) : ∀ c, s.head? = some c → isSp c = false := by
  intro c hc
  have := h1.1 c hc
  exact isSp_false this.1 this.2 (not_isNL_of_oneLine h2 c (List.mem_of_head? hc))

theorem stops_append {p : UInt8 → Bool} {a b : Bytes} (ha : Stops p a) (hb : a = [] → Stops p b) : Stops p (a ++ b) := by
  cases a with
  | nil => exact hb rfl
  | cons c a => exact stops_cons (ha c rfl)

theorem dropWhile_stops {p : UInt8 → Bool} {a : Bytes} (h : Stops p a) : a.dropWhile p = a := by
  cases a with
  | nil => rfl
  | cons c a => simp [h c rfl]

theorem eq_nil_or_cons_of_atEol {t : Bytes} (h : AtEol t) : t = [] ∨ ∃ c r, t = c :: r ∧ isNL c = true := by
  cases t with
  | nil => exact .inl rfl
  | cons c r => exact .inr ⟨c, r, rfl, by simpa using h c rfl⟩

theorem step_header {pre name post junk t : Bytes} (hpre : IniSpace pre) (hn : OneLine name) (ht : Trimmed name)
    (h93 : 93 ∉ name) (hpost : Blank post) (hj : OneLine junk) (hne : name = [] → post = []) (he : AtEol t) :
    step (91 :: (pre ++ (name ++ (post ++ 93 :: (junk ++ t))))) = .header name t := by
  have e1 : (91 :: (pre ++ (name ++ (post ++ 93 :: (junk ++ t))))).dropWhile isSp
      = 91 :: (pre ++ (name ++ (post ++ 93 :: (junk ++ t)))) := by
    simp [isSp]
  have e2 : (pre ++ (name ++ (post ++ 93 :: (junk ++ t)))).dropWhile isSp = (name ++ post) ++ 93 :: (junk ++ t) := by
    rw [dropWhile_append_stops (isSp_of_iniSpace hpre)]
    · simp
    · apply stops_append
      · exact head_not_sp ht hn
      · intro h; rw [hne h]; exact stops_cons (by decide)
  have hall : ∀ c ∈ name ++ post, (c != 93 && !isNL c) = true := by
    intro c hc
    rcases List.mem_append.mp hc with h | h
    · have : c ≠ 93 := fun hh => h93 (hh ▸ h)
      simp [this, not_isNL_of_oneLine hn c h]
    · rcases hpost c h with rfl | rfl <;> decide
  have hst : Stops (fun c => c != 93 && !isNL c) (93 :: (junk ++ t)) := stops_cons (by decide)
  unfold step
  rw [e1]
  simp only [show isComment 91 = false by decide, Bool.false_eq_true, if_false, if_true, e2,
    takeWhile_append_stops hall hst, dropWhile_append_stops hall hst]
  rw [trimRight_append (getLast_not_sp ht hn) (isSp_of_blank hpost),
    dropWhile_append_stops (fun c hc => by simp [not_isNL_of_oneLine hj c hc]) he]

theorem step_badHeader {pre text t : Bytes} (hpre : IniSpace pre) (hn : OneLine text) (h93 : 93 ∉ text)
    (hc : ∃ c r, text = c :: r ∧ c ≠ 32 ∧ c ≠ 9) (he : AtEol t) :
    step (91 :: (pre ++ (text ++ t))) = .badHeader t := by
  have e1 : (91 :: (pre ++ (text ++ t))).dropWhile isSp = 91 :: (pre ++ (text ++ t)) := by
    simp [isSp]
  have e2 : (pre ++ (text ++ t)).dropWhile isSp = text ++ t := by
    obtain ⟨c, r, rfl, h1, h2⟩ := hc
    rw [dropWhile_append_stops (isSp_of_iniSpace hpre)]
    exact stops_cons (isSp_false h1 h2 (not_isNL_of_oneLine hn c (by simp)))
  have hall : ∀ c ∈ text, (c != 93 && !isNL c) = true := by
    intro c hc
    have : c ≠ 93 := fun hh => h93 (hh ▸ hc)
    simp [this, not_isNL_of_oneLine hn c hc]
  have hst : Stops (fun c => c != 93 && !isNL c) t := by
    intro c hc
    have := he c hc
    simp at this
    simp [this]
  unfold step
  rw [e1]
  simp only [show isComment 91 = false by decide, Bool.false_eq_true, if_false, if_true, e2,
    takeWhile_append_stops hall hst, dropWhile_append_stops hall hst]
  rcases eq_nil_or_cons_of_atEol he with rfl | ⟨c, r, rfl, h⟩
  · rfl
  · split
    · rename_i heq; simp at heq; rw [heq.1] at h; simp [isNL] at h
    · rfl

theorem step_entry {key s1 s2 value s3 t : Bytes} (hk : OneLine key) (htk : Trimmed key) (h61 : 61 ∉ key)
    (hc : ∃ c r, key = c :: r ∧ c ≠ 59 ∧ c ≠ 35 ∧ c ≠ 91) (h1 : Blank s1) (h2 : Blank s2) (hv : OneLine value)
    (htv : Trimmed value) (h3 : Blank s3) (hne : value = [] → s3 = []) (he : AtEol t) :
    step (key ++ (s1 ++ 61 :: (s2 ++ (value ++ (s3 ++ t))))) = .entry key value (skipNewLine t) := by
  have hall : ∀ c ∈ key ++ s1, (c != 61 && !isNL c) = true := by
    intro c hc
    rcases List.mem_append.mp hc with h | h
    · have : c ≠ 61 := fun hh => h61 (hh ▸ h)
      simp [this, not_isNL_of_oneLine hk c h]
    · rcases h1 c h with rfl | rfl <;> decide
  have hst : Stops (fun c => c != 61 && !isNL c) (61 :: (s2 ++ (value ++ (s3 ++ t)))) := stops_cons (by decide)
  have hkey : trimRight (key ++ s1) = key := trimRight_append (getLast_not_sp htk hk) (isSp_of_blank h1)
  have hval : trimRight (value ++ s3) = value := trimRight_append (getLast_not_sp htv hv) (isSp_of_blank h3)
  have e3 : (s2 ++ (value ++ (s3 ++ t))).dropWhile (fun c => !isNL c && isSp c) = (value ++ s3) ++ t := by
    rw [dropWhile_append_stops]
    · simp
    · intro c hc
      simp [not_isNL_of_blank h2 c hc, isSp_of_blank h2 c hc]
    · apply stops_append
      · intro c hc; simp [head_not_sp htv hv c hc]
      · intro h; rw [hne h]; intro c hc; simp only [List.nil_append] at hc; have := he c hc; simp at this; simp [this]
  have hvall : ∀ c ∈ value ++ s3, (!isNL c) = true := by
    intro c hc
    rcases List.mem_append.mp hc with h | h
    · simp [not_isNL_of_oneLine hv c h]
    · simp [not_isNL_of_blank h3 c h]
  obtain ⟨c, r, rfl, hc1, hc2, hc3⟩ := hc
  have hcs : isSp c = false := head_not_sp htk hk c rfl
  have e0 : (c :: r ++ (s1 ++ 61 :: (s2 ++ (value ++ (s3 ++ t))))).dropWhile isSp
      = c :: (r ++ (s1 ++ 61 :: (s2 ++ (value ++ (s3 ++ t))))) := by simp [hcs]
  have e1 : c :: (r ++ (s1 ++ 61 :: (s2 ++ (value ++ (s3 ++ t)))))
      = (c :: r ++ s1) ++ 61 :: (s2 ++ (value ++ (s3 ++ t))) := by simp
  unfold step
  rw [e0]
  dsimp only
  rw [if_neg (by simp [isComment, hc1, hc2]), if_neg hc3, e1]
  simp only [takeWhile_append_stops hall hst, dropWhile_append_stops hall hst]
  rw [if_neg (by simp), hkey, e3, takeWhile_append_stops hvall he, dropWhile_append_stops hvall he, hval]

theorem step_garbage {text t : Bytes} (hk : OneLine text) (h61 : 61 ∉ text)
    (hc : ∃ c r, text = c :: r ∧ c ≠ 32 ∧ c ≠ 9 ∧ c ≠ 59 ∧ c ≠ 35 ∧ c ≠ 91) (he : AtEol t) :
    step (text ++ t) = .skip t := by
  have hall : ∀ c ∈ text, (c != 61 && !isNL c) = true := by
    intro c h
    have : c ≠ 61 := fun hh => h61 (hh ▸ h)
    simp [this, not_isNL_of_oneLine hk c h]
  have hst : Stops (fun c => c != 61 && !isNL c) t := by
    intro c hc
    have := he c hc
    simp at this
    simp [this]
  obtain ⟨c, r, rfl, a1, a2, a3, a4, a5⟩ := hc
  have hcs : isSp c = false := isSp_false a1 a2 (not_isNL_of_oneLine hk c (by simp))
  have e0 : (c :: r ++ t).dropWhile isSp = c :: (r ++ t) := by simp [hcs]
  unfold step
  rw [e0]
  dsimp only
  rw [if_neg (by simp [isComment, a3, a4]), if_neg a5, show c :: (r ++ t) = (c :: r) ++ t from rfl]
  simp only [takeWhile_append_stops hall hst, dropWhile_append_stops hall hst]
  rcases eq_nil_or_cons_of_atEol he with rfl | ⟨c, r, rfl, h⟩
  · rfl
  · split
    · rename_i heq; simp at heq; rw [heq.1] at h; simp [isNL] at h
    · rfl

theorem step_noKey {text t : Bytes} (hk : OneLine text) (he : AtEol t) : step (61 :: (text ++ t)) = .skip t := by
  have e0 : (61 :: (text ++ t)).dropWhile isSp = 61 :: (text ++ t) := by simp [isSp]
  unfold step
  rw [e0]
  dsimp only
  rw [if_neg (by decide), if_neg (by decide)]
  have e1 : (61 :: (text ++ t)).dropWhile (fun c => c != 61 && !isNL c) = 61 :: (text ++ t) := by simp
  have e2 : (61 :: (text ++ t)).takeWhile (fun c => c != 61 && !isNL c) = [] := by simp
  rw [e1, e2]
  show Step.skip ((61 :: text ++ t).dropWhile fun c => !isNL c) = _
  rw [dropWhile_append_stops _ he]
  intro c hc
  rcases List.mem_cons.mp hc with rfl | h
  · decide
  · simp [not_isNL_of_oneLine hk c h]

theorem parse_comment {c : UInt8} {text t : Bytes} (hc : c = 59 ∨ c = 35) (hk : OneLine text) (he : AtEol t) :
    parse (c :: (text ++ t)) = parse t := by
  have hcc : isComment c = true := by rcases hc with rfl | rfl <;> rfl
  have h := parse_loadComment _ (c :: (text ++ t)) (Nat.le_refl _) true 1
  rw [← h, loadComment_step hcc, dropWhile_append_stops (fun c hc => by simp [not_isNL_of_oneLine hk c hc]) he]
  split
  · rename_i h; rw [h]
  · exact parse_skipNewLine he

/-- One line, whatever follows its line break. -/
theorem parse_line {l : Line} {t : Bytes} (hl : l.WF) (he : AtEol t) :
    parse (l.render ++ t) = l.item.toList ++ parse t := by
  cases l with
  | blank ind => exact parse_space (isSp_of_blank hl)
  | comment ind c text =>
    obtain ⟨h1, h2, h3⟩ := hl
    simp only [Line.render, List.append_assoc]
    rw [parse_space (isSp_of_blank h1)]
    exact parse_comment h2 h3 he
  | garbage ind text =>
    obtain ⟨h1, h2, h3, h4⟩ := hl
    simp only [Line.render, List.append_assoc]
    rw [parse_space (isSp_of_blank h1), parse_eq, step_garbage h2 h3 h4 he]
    rfl
  | noKey ind text =>
    obtain ⟨h1, h2⟩ := hl
    simp only [Line.render, List.append_assoc]
    rw [parse_space (isSp_of_blank h1), List.cons_append, parse_eq, step_noKey h2 he]
    rfl
  | header ind pre name post junk =>
    obtain ⟨h1, h2, h3, h4, h5, h6, h7, h8⟩ := hl
    simp only [Line.render, List.append_assoc, List.cons_append]
    rw [parse_space (isSp_of_blank h1), parse_eq, step_header h2 h3 h4 h5 h6 h7 h8 he]
    rfl
  | badHeader ind pre text =>
    obtain ⟨h1, h2, h3, h4, h5⟩ := hl
    simp only [Line.render, List.append_assoc, List.cons_append]
    rw [parse_space (isSp_of_blank h1), parse_eq, step_badHeader h2 h3 h4 h5 he]
    rfl
  | entry ind key s1 s2 value s3 =>
    obtain ⟨h1, h2, h3, h4, h5, h6, h7, h8, h9, h10, h11⟩ := hl
    simp only [Line.render, List.append_assoc, List.cons_append]
    rw [parse_space (isSp_of_blank h1), parse_eq, step_entry h2 h3 h4 h5 h6 h7 h8 h9 h10 h11 he]
    simp [Line.item, parse_skipNewLine he]

theorem atEol_eol {e t : Bytes} (h : IsEol e) : AtEol (e ++ t) := by
  rcases h with rfl | rfl | rfl <;> exact stops_cons (by decide)

theorem parse_eol {e t : Bytes} (h : IsEol e) : parse (e ++ t) = parse t := by
  apply parse_space
  rcases h with rfl | rfl | rfl <;> simp [isSp]

theorem parse_text : ∀ {t : Text}, t.WF → parse t.render = t.items
  | [], _ => rfl
  | [(l, e)], h => by
    obtain ⟨hl, he⟩ := h
    simp only [Text.render, Text.items, List.flatMap_cons, List.flatMap_nil, List.append_nil]
    have key : parse (l.render ++ e) = l.item.toList := by
      rcases he with he | rfl
      · have := atEol_eol (t := []) he
        have h2 := parse_eol (t := []) he
        rw [List.append_nil] at this h2
        rw [parse_line hl this, h2, parse_nil, List.append_nil]
      · rw [parse_line hl (stops_nil _), parse_nil, List.append_nil]
    rw [key]
    cases hi : l.item <;> simp [List.filterMap_cons, hi]
  | (l, e) :: p :: t, h => by
    obtain ⟨hl, he, ht⟩ := h
    have ih := parse_text (t := p :: t) ht
    simp only [Text.render, Text.items] at ih ⊢
    rw [List.flatMap_cons, List.append_assoc, parse_line hl (atEol_eol he), parse_eol he, ih]
    cases hi : l.item <;> simp [List.filterMap_cons, hi]

theorem line_no_nul {l : Line} (h : l.WF) : 0 ∉ l.render := by
  have b : ∀ {s : Bytes}, Blank s → 0 ∉ s := fun h hc => by rcases h 0 hc with h | h <;> simp at h
  have w : ∀ {s : Bytes}, IniSpace s → 0 ∉ s := fun h hc => by rcases h 0 hc with h | h | h | h <;> simp at h
  have o : ∀ {s : Bytes}, OneLine s → 0 ∉ s := fun h hc => (h 0 hc).2.2 rfl
  cases l with
  | blank ind => exact b h
  | comment ind c text =>
    obtain ⟨h1, h2, h3⟩ := h
    have hc : (0 : UInt8) ≠ c := by rcases h2 with rfl | rfl <;> decide
    simp [Line.render, b h1, o h3, hc]
  | garbage ind text => obtain ⟨h1, h2, h3, h4⟩ := h; simp [Line.render, b h1, o h2]
  | noKey ind text => obtain ⟨h1, h2⟩ := h; simp [Line.render, b h1, o h2]
  | header ind pre name post junk =>
    obtain ⟨h1, h2, h3, h4, h5, h6, h7, h8⟩ := h
    simp [Line.render, b h1, w h2, o h3, b h6, o h7]
  | badHeader ind pre text =>
    obtain ⟨h1, h2, h3, h4, h5⟩ := h
    simp [Line.render, b h1, w h2, o h3]
  | entry ind key s1 s2 value s3 =>
    obtain ⟨h1, h2, h3, h4, h5, h6, h7, h8, h9, h10, h11⟩ := h
    simp [Line.render, b h1, o h2, b h6, b h7, o h8, b h10]

theorem text_no_nul : ∀ {t : Text}, t.WF → 0 ∉ t.render
  | [], _ => by simp [Text.render]
  | [(l, e)], h => by
    have he : 0 ∉ e := by rcases h.2 with (h | h | h) | h <;> rw [h] <;> simp
    simp [Text.render, line_no_nul h.1, he]
  | (l, e) :: p :: t, h => by
    have he : 0 ∉ e := by rcases h.2.1 with h | h | h <;> rw [h] <;> simp
    have := text_no_nul (t := p :: t) h.2.2
    rw [Text.render, List.flatMap_cons]
    simp only [List.mem_append, not_or]
    exact ⟨⟨line_no_nul h.1, he⟩, this⟩

theorem cut_of_no_nul {s : Bytes} (h : 0 ∉ s) : cut s = s := by
  have := takeWhile_append_stops (p := (· ≠ 0)) (a := s) (b := []) (fun c hc => by
    have : c ≠ 0 := fun hh => h (hh ▸ hc)
    simpa using this) (stops_nil _)
  simpa [cut] using this

theorem cut_append_nul {s r : Bytes} (h : 0 ∉ s) : cut (s ++ 0 :: r) = s :=
  takeWhile_append_stops (p := (· ≠ 0)) (fun c hc => by
    have : c ≠ 0 := fun hh => h (hh ▸ hc)
    simpa using this) (stops_cons (by simp))

/-- What the parser finds in a text is what the text means. -/
theorem items_text {t : Text} (h : t.WF) : items t.render = t.items := by
  rw [items_eq_parse, cut_of_no_nul (text_no_nul h), parse_text h]

end Licensecc.Ini
