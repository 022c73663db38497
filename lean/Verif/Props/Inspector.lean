import Verif.Spec.Inspector
import Verif.Spec.Identify
import Verif.Props.Acquire
import Verif.Props.Identify
import Verif.Props.Ini
import Verif.Props.ExecEnv
/-!
# C64: lccinspector
-/
namespace Licensecc.Inspector
open Licensecc.Spec Licensecc.Ini

/-! ## Names and rooms -/

theorem names_fuel (x : Nat) : ∀ n t i, t.length < n → ∀ m, t.length < m → namesAux x n i t = namesAux x m i t := by
  intro n
  induction n with
  | zero => intro t i h; omega
  | succ n ih =>
    intro t i hn m hm
    match m, hm with
    | m + 1, hm =>
      simp only [namesAux]
      rcases step_progress t with h | h
      · rw [h]
      · cases hs : step t <;> rw [hs] at h <;> simp only [Step.rest] at h <;> dsimp only
        case skip r => exact ih r _ (by omega) m (by omega)
        case badHeader r => exact ih r _ (by omega) m (by omega)
        case header a r => rw [ih r _ (by omega) m (by omega)]
        case entry a b r => rw [ih r _ (by omega) m (by omega)]

def names (x : Nat) (i : Bool) (t : Bytes) : List (Bytes × Nat) := namesAux x (t.length + 1) i t

theorem names_eq (x : Nat) (i : Bool) (t : Bytes) : names x i t = match step t with
    | .done => []
    | .skip r => names x i r
    | .badHeader r => names x true r
    | .header n r => (n, (nameStart t).length + x) :: names x true r
    | .entry _ _ r => if i then names x i r else ([], 1) :: names x i r := by
  show namesAux x (t.length + 1) i t = _
  simp only [namesAux]
  rcases step_progress t with h | h
  · rw [h]
  · cases hs : step t <;> rw [hs] at h <;> simp only [Step.rest] at h <;> dsimp only
    case skip r => exact names_fuel _ _ r _ h _ (by omega)
    case badHeader r => exact names_fuel _ _ r _ h _ (by omega)
    case header a r => rw [names_fuel _ _ r _ h _ (Nat.lt_succ_self _)]; rfl
    case entry a b r => rw [names_fuel _ _ r _ h _ (Nat.lt_succ_self _)]; rfl

theorem nameStart_dropSpace (t : Bytes) : nameStart (t.dropWhile isSp) = nameStart t := by
  unfold nameStart; rw [dropWhile_dropWhile]

theorem names_dropSpace (x : Nat) (i : Bool) (t : Bytes) : names x i (t.dropWhile isSp) = names x i t := by
  rw [names_eq, step_dropSpace, nameStart_dropSpace, ← names_eq]

theorem names_space {x : Nat} {i : Bool} {a t : Bytes} (ha : ∀ c ∈ a, isSp c = true) : names x i (a ++ t) = names x i t := by
  rw [← names_dropSpace, dropWhile_append_all ha, names_dropSpace]

theorem names_nil (x : Nat) (i : Bool) : names x i [] = [] := rfl

theorem names_loadComment (x : Nat) : ∀ (k : Nat) (u : Bytes), u.length ≤ k → ∀ i b n,
    names x i (loadComment b n u) = names x i u := by
  intro k
  induction k with
  | zero =>
    intro u hu i b n
    have : u = [] := by cases u <;> simp_all
    subst this
    have := loadComment_length b n []
    have : loadComment b n [] = [] := List.length_eq_zero_iff.mp (by simpa using this)
    rw [this]
  | succ k ih =>
    intro u hu i b n
    match n with
    | 0 => rfl
    | n + 1 =>
      by_cases hs : startsComment u = true
      · cases u with
        | nil => simp [startsComment] at hs
        | cons c r =>
          have hc : isComment c = true := hs
          have hr : names x i (c :: r) = names x i (loadComment true (r.length + 1) (c :: r)) := by
            rw [names_eq x i (c :: r), step_comment hc]; rfl
          rw [hr, loadComment_step hc, loadComment_step hc]
          split
          · rfl
          · have h1 := skipNewLine_length (r.dropWhile fun c => !isNL c)
            have h2 := length_dropWhile_le (fun c => !isNL c) r
            have h3 : (skipNewLine (r.dropWhile fun c => !isNL c)).length ≤ k := by
              simp at hu; omega
            rw [ih _ h3, ih _ h3]
      · simp only [loadComment, hs]
        simp only [Bool.false_eq_true, if_false]
        split
        · split
          · rename_i hp
            have hl := length_dropWhile_le isSp u
            have : u.dropWhile isSp ≠ u := by
              intro h; rw [h] at hp; exact hs hp
            have hlt : (u.dropWhile isSp).length ≤ k := by
              cases u with
              | nil => simp [startsComment] at hp
              | cons c r =>
                rw [List.dropWhile_cons] at this ⊢
                split
                · have := length_dropWhile_le isSp r
                  simp at hu; omega
                · rename_i hc; simp [hc] at this
            rw [ih _ hlt, names_dropSpace]
          · rfl
        · rfl

theorem sections_names (s : Bytes) : sections (some s) = firstOnly (names (s.length - (cut s).length + 1) false (cut s)) := by
  show firstOnly (names _ false (loadComment false (cut s).length (cut s))) = _
  rw [names_loadComment _ _ _ (Nat.le_refl _)]

theorem names_skipNewLine {x : Nat} {i : Bool} {t : Bytes} (h : AtEol t) : names x i (skipNewLine t) = names x i t := by
  rcases eq_nil_or_cons_of_atEol h with rfl | ⟨c, r, rfl, hc⟩
  · rfl
  · have hsp : ∀ {c}, isNL c = true → isSp c = true := isSp_of_isNL
    rcases (show c = 13 ∧ r.head? = some 10 ∨ ¬ (c = 13 ∧ r.head? = some 10) from Decidable.em _) with ⟨rfl, hr⟩ | hn
    · cases r with
      | nil => simp at hr
      | cons d r =>
        simp only [List.head?_cons, Option.some.injEq] at hr
        subst hr
        show names x i r = _
        exact (names_space (a := [13, 10]) (t := r) (by simp [isSp])).symm
    · have : skipNewLine (c :: r) = r := by
        unfold skipNewLine
        split
        · rename_i h; simp only [List.cons.injEq] at h; obtain ⟨rfl, rfl⟩ := h; simp at hn
        · rename_i h; simp only [List.cons.injEq] at h; exact h.2.symm
        · simp_all
      rw [this]
      exact (names_space (a := [c]) (t := r) (by simp [hsp hc])).symm

theorem names_comment {x : Nat} {i : Bool} {c : UInt8} {text t : Bytes} (hc : c = 59 ∨ c = 35) (hk : OneLine text) (he : AtEol t) :
    names x i (c :: (text ++ t)) = names x i t := by
  have hcc : isComment c = true := by rcases hc with rfl | rfl <;> rfl
  have h := names_loadComment x _ (c :: (text ++ t)) (Nat.le_refl _) i true 1
  rw [← h, loadComment_step hcc, dropWhile_append_stops (fun c hc => by simp [not_isNL_of_oneLine hk c hc]) he]
  split
  · rename_i h; rw [h]
  · exact names_skipNewLine he

/-- What a line contributes; `n` is the number of bytes behind it. -/
def lineNames (x : Nat) (i : Bool) (l : Line) (n : Nat) : List (Bytes × Nat) := match l with
  | .header _ _ name post junk => [(name, (name ++ post ++ 93 :: junk).length + n + x)]
  | .entry .. => if i then [] else [([], 1)]
  | _ => []

/-- Has a section begun? -/
def begun (i : Bool) : Line → Bool
  | .header .. => true
  | .badHeader .. => true
  | _ => i

theorem names_line {x : Nat} {i : Bool} {l : Line} {t : Bytes} (hl : l.WF) (he : AtEol t) :
    names x i (l.render ++ t) = lineNames x i l t.length ++ names x (begun i l) t := by
  cases l with
  | blank ind => exact names_space (isSp_of_blank hl)
  | comment ind c text =>
    obtain ⟨h1, h2, h3⟩ := hl
    simp only [Line.render, List.append_assoc]
    rw [names_space (isSp_of_blank h1)]
    exact names_comment h2 h3 he
  | garbage ind text =>
    obtain ⟨h1, h2, h3, h4⟩ := hl
    simp only [Line.render, List.append_assoc]
    rw [names_space (isSp_of_blank h1), names_eq, step_garbage h2 h3 h4 he]
    rfl
  | noKey ind text =>
    obtain ⟨h1, h2⟩ := hl
    simp only [Line.render, List.append_assoc]
    rw [names_space (isSp_of_blank h1), List.cons_append, names_eq, step_noKey h2 he]
    rfl
  | header ind pre name post junk =>
    obtain ⟨h1, h2, h3, h4, h5, h6, h7, h8⟩ := hl
    simp only [Line.render, List.append_assoc, List.cons_append]
    rw [names_space (isSp_of_blank h1), names_eq, step_header h2 h3 h4 h5 h6 h7 h8 he]
    have hst : nameStart (91 :: (pre ++ (name ++ (post ++ 93 :: (junk ++ t))))) = name ++ (post ++ 93 :: (junk ++ t)) := by
      unfold nameStart
      rw [List.dropWhile_cons, if_neg (by decide), List.drop_succ_cons, List.drop_zero, dropWhile_append_all (isSp_of_iniSpace h2)]
      apply dropWhile_stops
      refine stops_append (head_not_sp h4 h3) (fun hn => ?_)
      rw [h8 hn]
      exact stops_cons (by decide)
    rw [hst]
    simp only [lineNames, begun, List.cons_append, List.nil_append, List.length_append, List.length_cons, List.cons.injEq, Prod.mk.injEq,
      true_and, and_true]
    omega
  | badHeader ind pre text =>
    obtain ⟨h1, h2, h3, h4, h5⟩ := hl
    simp only [Line.render, List.append_assoc, List.cons_append]
    rw [names_space (isSp_of_blank h1), names_eq, step_badHeader h2 h3 h4 h5 he]
    rfl
  | entry ind key s1 s2 value s3 =>
    obtain ⟨h1, h2, h3, h4, h5, h6, h7, h8, h9, h10, h11⟩ := hl
    simp only [Line.render, List.append_assoc, List.cons_append]
    rw [names_space (isSp_of_blank h1), names_eq, step_entry h2 h3 h4 h5 h6 h7 h8 h9 h10 h11 he]
    cases i <;> simp [lineNames, begun, names_skipNewLine he]

/-- The names of a text. -/
def textNames (x : Nat) : Bool → Text → List (Bytes × Nat)
  | _, [] => []
  | i, (l, e) :: t => lineNames x i l (e.length + (Text.render t).length) ++ textNames x (begun i l) t

theorem names_text {x : Nat} : ∀ {t : Text} (i : Bool), t.WF → names x i t.render = textNames x i t
  | [], _, _ => rfl
  | [(l, e)], i, h => by
    obtain ⟨hl, he⟩ := h
    have hr : Text.render [(l, e)] = l.render ++ e := by simp [Text.render]
    rw [hr]
    have hz : (Text.render []).length = 0 := rfl
    simp only [textNames, List.append_nil, hz, Nat.add_zero]
    rcases he with he | rfl
    · have h1 := atEol_eol (t := []) he
      have h2 : names x (begun i l) (e ++ []) = names x (begun i l) [] :=
        names_space (by rcases he with rfl | rfl | rfl <;> simp [isSp])
      rw [List.append_nil] at h1 h2
      rw [names_line hl h1, h2, names_nil, List.append_nil]
    · rw [names_line hl (stops_nil _), names_nil, List.append_nil]
  | (l, e) :: p :: t, i, h => by
    obtain ⟨hl, he, ht⟩ := h
    have ih := names_text (x := x) (t := p :: t) (begun i l) ht
    have hr : Text.render ((l, e) :: p :: t) = l.render ++ (e ++ Text.render (p :: t)) := by
      simp [Text.render]
    rw [hr, names_line hl (atEol_eol he), names_space (by rcases he with rfl | rfl | rfl <;> simp [isSp]), ih]
    simp only [textNames, List.length_append]

theorem sections_text {t : Text} (h : t.WF) : sections (some t.render) = firstOnly (textNames 1 false t) := by
  rw [sections_names, cut_of_no_nul (text_no_nul h), Nat.sub_self, Nat.zero_add, names_text _ h]

/-! ## First names -/

theorem mem_firstOnly (x : Bytes × Nat) : ∀ xs : List (Bytes × Nat), x ∈ firstOnly xs ↔
    ∃ a b, xs = a ++ x :: b ∧ ∀ y ∈ a, sameName y.1 x.1 = false
  | [] => by simp [firstOnly]
  | z :: zs => by
    simp only [firstOnly, List.mem_cons, List.mem_filter, mem_firstOnly x zs, Bool.not_eq_true', sameName_comm x.1]
    constructor
    · rintro (rfl | ⟨⟨a, b, rfl, h⟩, hz⟩)
      · exact ⟨[], zs, rfl, by simp⟩
      · exact ⟨z :: a, b, rfl, by simpa [hz] using h⟩
    · rintro ⟨a, b, h1, h2⟩
      cases a with
      | nil => simp only [List.nil_append, List.cons.injEq] at h1; exact .inl h1.1.symm
      | cons y a =>
        simp only [List.cons_append, List.cons.injEq] at h1
        obtain ⟨rfl, rfl⟩ := h1
        exact .inr ⟨⟨a, b, rfl, fun y hy => h2 y (by simp [hy])⟩, h2 z (by simp)⟩

theorem firstOnly_covers (n : Bytes) : ∀ (xs : List (Bytes × Nat)), (∃ r, (n, r) ∈ xs) → ∃ n' r, (n', r) ∈ firstOnly xs ∧ sameName n' n = true
  | [], h => by simp at h
  | z :: zs, ⟨r, h⟩ => by
    by_cases hz : sameName z.1 n = true
    · exact ⟨z.1, z.2, by simp [firstOnly], hz⟩
    · rcases List.mem_cons.mp h with rfl | h
      · exact absurd (sameName_refl _) hz
      · obtain ⟨n', r', h1, h2⟩ := firstOnly_covers n zs ⟨r, h⟩
        refine ⟨n', r', ?_, h2⟩
        simp only [firstOnly, List.mem_cons, List.mem_filter, Bool.not_eq_true']
        refine .inr ⟨h1, ?_⟩
        rw [sameName_trans h2, sameName_comm]
        simpa using hz

theorem textNames_append (a : Text) : ∀ (x : Nat) (i : Bool) (b : Text), textNames x i (a ++ b)
    = textNames (x + (Text.render b).length) i a ++ textNames x (a.foldl (fun i p => begun i p.1) i) b := by
  induction a with
  | nil => intros; rfl
  | cons p a ih =>
    intro x i b
    obtain ⟨l, e⟩ := p
    have hr : (Text.render (a ++ b)).length = (Text.render a).length + (Text.render b).length := by
      simp [Text.render]
    have hl : lineNames x i l (e.length + (Text.render (a ++ b)).length)
        = lineNames (x + (Text.render b).length) i l (e.length + (Text.render a).length) := by
      rw [hr]
      cases l <;> simp [lineNames]
      omega
    simp only [List.cons_append, textNames, ih, hl, List.append_assoc, List.foldl_cons]

/-- Where a name comes from. -/
theorem textNames_split {y : Bytes × Nat} : ∀ (t : Text) (x : Nat) (i : Bool) (p q : List (Bytes × Nat)), textNames x i t = p ++ y :: q →
    ∃ a l e b, t = a ++ (l, e) :: b ∧ lineNames x (a.foldl (fun i p => begun i p.1) i) l (e.length + (Text.render b).length) = [y]
      ∧ p = textNames (x + (Text.render ((l, e) :: b)).length) i a
  | [], _, _, p, q, h => by simp [textNames] at h
  | (l, e) :: t, x, i, p, q, h => by
    have hcases : lineNames x i l (e.length + (Text.render t).length) = [] ∨ ∃ z, lineNames x i l (e.length + (Text.render t).length) = [z] := by
      cases l <;> simp [lineNames]
      cases i <;> simp
    have hlen : ∀ (b : Text) (l' : Line) (e' : Bytes) (a : Text), t = a ++ (l', e') :: b →
        (Text.render t).length = (Text.render a).length + (Text.render ((l', e') :: b)).length := by
      rintro b l' e' a rfl; simp [Text.render]
    have hline : ∀ n, lineNames (x + n) i l (e.length + (Text.render t).length - n) = lineNames x i l (e.length + (Text.render t).length)
        ∨ e.length + (Text.render t).length < n := by
      intro n
      by_cases hn : e.length + (Text.render t).length < n
      · exact .inr hn
      · left; cases l <;> simp [lineNames]; omega
    rw [textNames] at h
    rcases hcases with h0 | ⟨z, h0⟩
    · rw [h0, List.nil_append] at h
      obtain ⟨a, l', e', b, rfl, h2, h3⟩ := textNames_split t x _ p q h
      refine ⟨(l, e) :: a, l', e', b, rfl, h2, ?_⟩
      rw [h3, textNames]
      have h5 := hlen b l' e' a rfl
      rcases hline (Text.render ((l', e') :: b)).length with h4 | h4
      · rw [h0, h5, show e.length + ((Text.render a).length + (Text.render ((l', e') :: b)).length) - (Text.render ((l', e') :: b)).length
          = e.length + (Text.render a).length by omega] at h4
        rw [h4, List.nil_append]
      · omega
    · rw [h0] at h
      cases p with
      | nil =>
        simp only [List.cons_append, List.nil_append, List.cons.injEq] at h
        obtain ⟨rfl, _⟩ := h
        exact ⟨[], l, e, t, rfl, h0, rfl⟩
      | cons w p =>
        simp only [List.cons_append, List.nil_append, List.cons.injEq] at h
        obtain ⟨rfl, h⟩ := h
        obtain ⟨a, l', e', b, rfl, h2, h3⟩ := textNames_split t x _ p q h
        refine ⟨(l, e) :: a, l', e', b, rfl, h2, ?_⟩
        rw [textNames, ← h3]
        have h5 := hlen b l' e' a rfl
        rcases hline (Text.render ((l', e') :: b)).length with h4 | h4
        · rw [h0, h5, show e.length + ((Text.render a).length + (Text.render ((l', e') :: b)).length) - (Text.render ((l', e') :: b)).length
            = e.length + (Text.render a).length by omega] at h4
          rw [h4]; rfl
        · omega

theorem items_cons (l : Line) (e : Bytes) (t : Text) : Text.items ((l, e) :: t) = l.item.toList ++ Text.items t := by
  simp only [Text.items, List.filterMap_cons]
  cases l.item <;> rfl

theorem begun_false {a : Text} (h : a.foldl (fun i p => begun i p.1) false = false) : ∀ n, Item.header n ∉ Text.items a := by
  have key : ∀ (a : Text) (i : Bool), a.foldl (fun i p => begun i p.1) i = false → i = false ∧ ∀ n, Item.header n ∉ Text.items a := by
    intro a
    induction a with
    | nil => intro i h; exact ⟨h, by simp [Text.items]⟩
    | cons p a ih =>
      intro i h
      obtain ⟨h1, h2⟩ := ih _ h
      obtain ⟨l, e⟩ := p
      cases l <;> simp only [begun] at h1 <;> first | exact absurd h1 (by decide) | skip
      all_goals
        refine ⟨h1, fun n hn => h2 n ?_⟩
        simpa [items_cons, Line.item] using hn
  exact (key a false h).2

theorem begun_eq_false {a : Text} (h : ∀ n, Item.header n ∉ Text.items a) (hb : Item.badHeader ∉ Text.items a) :
    a.foldl (fun i p => begun i p.1) false = false := by
  induction a with
  | nil => rfl
  | cons p a ih =>
    obtain ⟨l, e⟩ := p
    have h1 : ∀ x, x ∈ Text.items a → x ∈ Text.items ((l, e) :: a) := by
      intro x hx
      rw [items_cons]; simp [hx]
    rw [List.foldl_cons]
    have hl : begun false l = false := by
      cases l <;> simp [begun]
      · rename_i name _ _; exact h name (by simp [items_cons, Line.item])
      · exact hb (by simp [items_cons, Line.item])
    simp only [hl]
    exact ih (fun n hn => h n (h1 _ hn)) (fun hn => hb (h1 _ hn))

/-- Names of a text: headers, and the empty name. -/
theorem mem_textNames {n : Bytes} {r : Nat} : ∀ (t : Text) (x : Nat) (i : Bool), (n, r) ∈ textNames x i t →
    Item.header n ∈ Text.items t ∨ n = [] ∧ r = 1
  | [], x, i, h => by simp [textNames] at h
  | (l, e) :: t, x, i, h => by
    rw [textNames, List.mem_append] at h
    have h1 : ∀ x, x ∈ Text.items t → x ∈ Text.items ((l, e) :: t) := by
      intro x hx
      rw [items_cons]; simp [hx]
    rcases h with h | h
    · cases l <;> simp only [lineNames, List.mem_singleton, Prod.mk.injEq, List.not_mem_nil] at h
      case header => exact .inl (by simp [items_cons, Line.item, h.1])
      case entry => cases i <;> simp at h; exact .inr h
    · exact (mem_textNames t x _ h).imp (h1 _) id

theorem header_mem_textNames {n : Bytes} : ∀ (t : Text) (x : Nat) (i : Bool), Item.header n ∈ Text.items t → ∃ r, (n, r) ∈ textNames x i t
  | [], x, i, h => by simp [Text.items] at h
  | (l, e) :: t, x, i, h => by
    rw [textNames]
    have hin : (∃ ind pre post junk, l = .header ind pre n post junk) ∨ Item.header n ∈ Text.items t := by
      rw [items_cons] at h
      cases l <;> simp_all [Line.item, eq_comm]
    rcases hin with ⟨ind, pre, post, junk, rfl⟩ | h
    · exact ⟨_, by simp only [lineNames, List.mem_append, List.mem_singleton]; exact .inl rfl⟩
    · obtain ⟨r, hr⟩ := header_mem_textNames t x (begun i l) h
      exact ⟨r, by simp [hr]⟩

/-- Too little room. -/
theorem short_iff {t : Text} (hw : t.WF) (hc : Closed t) : (∃ n room, (n, room) ∈ sections (some t.render) ∧ room < 15)
    ↔ EarlyEntry t ∨ ShortEnd t := by
  rw [sections_text hw]
  have hearly : EarlyEntry t → ([], 1) ∈ firstOnly (textNames 1 false t) := by
    rintro ⟨a, b, e, ind, key, s1, s2, value, s3, rfl, h⟩
    have hb : Item.badHeader ∉ Text.items a := by
      intro hb; apply hc; simp only [Text.items, List.filterMap_append, List.mem_append] at hb ⊢; exact .inl hb
    rw [textNames_append, begun_eq_false h hb]
    have hcons : textNames 1 false ((Line.entry ind key s1 s2 value s3, e) :: b) = ([], 1) :: textNames 1 false b := rfl
    rw [hcons]
    have hall : ∀ y ∈ textNames (1 + (Text.render ((Line.entry ind key s1 s2 value s3, e) :: b)).length) false a, y = ([], 1) := by
      rintro ⟨n, r⟩ hy
      rcases mem_textNames _ _ _ hy with h1 | ⟨rfl, rfl⟩
      · exact absurd h1 (h n)
      · rfl
    cases hl : textNames (1 + (Text.render ((Line.entry ind key s1 s2 value s3, e) :: b)).length) false a with
    | nil => simp [firstOnly]
    | cons y ys =>
      rw [hall y (by rw [hl]; simp)]
      simp [firstOnly]
  constructor
  · rintro ⟨n, room, h, hr⟩
    obtain ⟨p, q, h1, h2⟩ := (mem_firstOnly _ _).mp h
    obtain ⟨a, l, e, b, rfl, h4, rfl⟩ := textNames_split _ _ _ _ _ h1
    cases l <;> simp only [lineNames, List.cons.injEq, Prod.mk.injEq, and_true, reduceCtorEq] at h4
    case header ind pre name post junk =>
      obtain ⟨rfl, h4⟩ := h4
      right
      refine ⟨a, b, e, ind, pre, name, post, junk, rfl, fun n hn hs => ?_, ?_⟩
      · obtain ⟨r, hr⟩ := header_mem_textNames a (1 + (Text.render ((Line.header ind pre name post junk, e) :: b)).length) false hn
        have := h2 _ hr
        rw [(sameName_iff _ _).mpr hs] at this
        simp at this
      · simp only [List.length_append, List.length_cons] at h4 ⊢; omega
    case entry ind key s1 s2 value s3 =>
      cases hb : a.foldl (fun i p => begun i p.1) false <;> rw [hb] at h4 <;> simp at h4
      left
      exact ⟨a, b, e, ind, key, s1, s2, value, s3, rfl, begun_false hb⟩
  · rintro (h | ⟨a, b, e, ind, pre, name, post, junk, rfl, h1, h2⟩)
    · exact ⟨_, _, hearly h, by decide⟩
    · by_cases hn : ∃ y ∈ textNames (1 + (Text.render ((Line.header ind pre name post junk, e) :: b)).length) false a, sameName y.1 name = true
      · obtain ⟨⟨n, r⟩, hy, hs⟩ := hn
        have hs' : SameCI n name := (sameName_iff _ _).mp hs
        rcases mem_textNames _ _ _ hy with h3 | ⟨rfl, rfl⟩
        · exact absurd hs' (h1 n h3)
        · obtain ⟨p, q, hpq⟩ := List.append_of_mem hy
          obtain ⟨a', l', e', b', rfl, h4, _⟩ := textNames_split _ _ _ _ _ hpq
          refine ⟨[], 1, hearly ?_, by decide⟩
          have hname : name = [] := sameName_nil.mp hs
          cases l' <;> simp only [lineNames, List.cons.injEq, Prod.mk.injEq, and_true, reduceCtorEq] at h4
          case header ind' pre' name' post' junk' =>
            obtain ⟨rfl, h4⟩ := h4
            exact absurd hs' (h1 [] (by
              simp only [Text.items, List.filterMap_append, List.mem_append]
              right
              show _ ∈ Text.items _
              rw [items_cons]; simp [Line.item]))
          case entry i0 i1 i2 i3 i4 i5 _ =>
            cases hb : a'.foldl (fun i p => begun i p.1) false <;> rw [hb] at h4 <;> simp at h4
            exact ⟨a', b' ++ _ :: b, e', i0, i1, i2, i3, i4, i5, by simp; rfl, begun_false hb⟩
      · refine ⟨name, (name ++ post ++ 93 :: junk).length + (e.length + (Text.render b).length) + 1, (mem_firstOnly _ _).mpr ?_, ?_⟩
        · rw [textNames_append]
          refine ⟨_, textNames 1 true b, rfl, fun y hy => ?_⟩
          cases hs : sameName y.1 name with
          | true => exact absurd ⟨y, hy, hs⟩ hn
          | false => rfl
        · simp only [List.length_append, List.length_cons] at h2 ⊢; omega

/-! ## The lines -/

theorem verdict_of {cfg : Config} {w : World} {c : Option Caller} {hint : Option LicenseLocation} {out : Option LicInfo}
    {res : AcquireResult} (h : acquire cfg w c hint out = .ok res) (p : Bytes) :
    ∃ d, verdict p res.ret = .ok (p, d) ∧ (d = okText ↔ res.ret = .licenseOk) := by
  obtain ⟨f, r, lics, es, hf, hr, _, hc, _⟩ := acquire_cases h
  have hret : res.ret = .licenseOk ∨ IsFailure res.ret := by
    rcases hc with ⟨_, _, href, _⟩ | ⟨_, vs, es', oks, errs, r1, _, hloop, ⟨_, hoks, hok, _⟩ | ⟨_, _, href, _⟩⟩
    · exact .inr (refused_failure href).1
    · exact .inl hok
    · exact .inr (refused_failure href).1
  rcases hret with h1 | h1
  · exact ⟨okText, by simp [verdict, h1, okText], by simp [h1]⟩
  · cases ht : res.ret <;> rw [ht] at h1 <;> simp [IsFailure, stage] at h1 <;>
      exact ⟨_, rfl, by decide⟩

/-- **C64**: the texts are distinct: from a text one knows the code, and the kind of virtualisation, its product and the cloud. -/
theorem C64_texts_distinct :
    (∀ a b : EventType, describe a = describe b → describe a ≠ none → a = b)
    ∧ (∀ a b : VirtSummary, descByVirt a = descByVirt b → a = b)
    ∧ (∀ a b : VirtDetail, descByVirtDetail a = descByVirtDetail b → a = b)
    ∧ (∀ a b : CloudProvider, descByCloudProvider a = descByCloudProvider b → a = b)
    ∧ (∀ a, descByVirt a ≠ none) ∧ (∀ a, descByVirtDetail a ≠ none) ∧ ∀ a, descByCloudProvider a ≠ none := by
  refine ⟨?_, ?_, ?_, ?_, ?_, ?_, ?_⟩
  · intro a b; cases a <;> cases b <;> decide
  · intro a b; cases a <;> cases b <;> decide
  · intro a b; cases a <;> cases b <;> decide
  · intro a b; cases a <;> cases b <;> decide
  · intro a; cases a <;> decide
  · intro a; cases a <;> decide
  · intro a; cases a <;> decide

/-- **C64**: lccinspector has a text for every code the library returns. -/
theorem C64_every_code_described {cfg : Config} {w : World} {c : Option Caller} {hint : Option LicenseLocation} {out : Option LicInfo}
    {res : AcquireResult} (h : acquire cfg w c hint out = .ok res) : ∃ d, describe res.ret = some d := by
  obtain ⟨d, h1, _⟩ := verdict_of h []
  unfold verdict at h1
  split at h1
  · rename_i h2; rw [h2]; exact ⟨_, rfl⟩
  · cases h3 : describe res.ret with
    | none => simp [h3] at h1
    | some d => exact ⟨d, rfl⟩

theorem verifyLicense_split {cfg : Config} {r : Run} {fname : Bytes} {lines : List (Bytes × Bytes)}
    (h : verifyLicense cfg r fname = .ok lines) : ∃ res d rest, acquire cfg (r.world 0) none (some (location fname)) (some r.info) = .ok res
      ∧ (d = okText ↔ res.ret = .licenseOk) ∧ lines = (cfg.projectName, d) :: rest
      ∧ sectionLines cfg r (location fname) 1 (sections r.content) = .ok rest := by
  unfold verifyLicense at h
  split at h
  · simp at h
  obtain ⟨res, h1, h⟩ := Outcome.bind_eq_ok.mp h
  obtain ⟨line, h2, h⟩ := Outcome.bind_eq_ok.mp h
  obtain ⟨rest, h3, h⟩ := Outcome.bind_eq_ok.mp h
  obtain ⟨d, h4, h5⟩ := verdict_of h1 cfg.projectName
  rw [h4] at h2
  simp only [Outcome.ok.injEq, Outcome.pure_eq] at h2 h
  subst h2
  exact ⟨res, d, rest, h1, h5, h.symm, h3⟩

/-- **C64**: the first line says "license OK" exactly if one of the texts found grants the default feature to a caller with magic
    number 0. -/
theorem C64_first_line {cfg : Config} {r : Run} {fname : Bytes} {lines : List (Bytes × Bytes)} {now : Int}
    (h : verifyLicense cfg r fname = .ok lines) (hclock : ∀ k, (r.world 0).clock k = now) :
    ∃ d rest, lines = (cfg.projectName, d) :: rest ∧ (d = okText ↔ ∃ src text,
      Offers cfg (r.world 0) (some (location fname)) src text ∧ Grants cfg (r.world 0) 0 cfg.projectName text now) := by
  obtain ⟨res, d, rest, h1, h2, h3, _⟩ := verifyLicense_split h
  refine ⟨d, rest, h3, ?_⟩
  rw [h2, C02_license_ok_iff h1 hclock]
  constructor
  · rintro ⟨f, src, text, hf, ho, hg⟩
    cases hf
    exact ⟨src, text, ho, hg⟩
  · rintro ⟨src, text, ho, hg⟩
    exact ⟨_, src, text, .noCaller, ho, hg⟩

theorem location_text {fname : Bytes} (h0 : 0 ∉ fname) (hl : fname.length < 4096) : TextIn (location fname).data 4096 fname := by
  refine ⟨h0, .inl ⟨List.replicate (4095 - fname.length) 0, ?_, by omega⟩⟩
  have : 4096 - fname.length = (4095 - fname.length) + 1 := by omega
  simp only [location]
  rw [this, List.replicate_succ]

theorem splitString_one {s : Bytes} {c : UInt8} (h : c ∉ s) (h0 : s ≠ []) : splitString s c = [s] := by
  have := C36_split_of_join [s] c (by simpa using h) (by simpa using h0)
  simpa [joinWith] using this

/-- **C64**: about an ordinary file name, when nothing else is searched: the first line says "license OK" exactly if the first 4096
    bytes of the file grant the default feature and the library was built with magic number 0. -/
theorem C64_file {cfg : Config} {r : Run} {fname c : Bytes} {lines : List (Bytes × Bytes)} {now : Int}
    (h : verifyLicense cfg r fname = .ok lines) (hclock : ∀ k, (r.world 0).clock k = now) (hn : cfg.nearModule = false)
    (he : cfg.withEnvVar = false) (h0 : 0 ∉ fname) (hl : fname.length < 4096) (hne : fname ≠ []) (hs : 59 ∉ fname)
    (hx : fname ≠ b!"ExternalDefinition") (hp : (r.world 0).probe fname = true) (hr : (r.world 0).read fname = some c) :
    ∃ d rest, lines = (cfg.projectName, d) :: rest
      ∧ (d = okText ↔ cfg.magic = 0 ∧ Grants cfg (r.world 0) cfg.magic cfg.projectName (c.take 4096) now) := by
  obtain ⟨d, rest, h1, h2⟩ := C64_first_line h hclock
  refine ⟨d, rest, h1, h2.trans ?_⟩
  have hsp := splitString_one hs hne
  constructor
  · rintro ⟨src, text, ho, hg⟩
    have hm : cfg.magic = 0 := hg.magic.symm
    rw [hm]
    refine ⟨rfl, ?_⟩
    cases ho with
    | nearModule h => simp [hn] at h
    | envLocation h => simp [he] at h
    | envData h => simp [he] at h
    | envDataEncoded h => simp [he] at h
    | hintPath e1 _ e2 e3 _ _ e4 =>
      cases e1
      have := textIn_unique (location_text h0 hl) e2; subst this
      rw [hsp, List.mem_singleton] at e3
      subst e3
      rw [hr] at e4; cases e4
      exact hg
    | hintPathOddName e1 _ e2 e3 =>
      cases e1
      have := textIn_unique (location_text h0 hl) e2; subst this
      rw [hsp, List.mem_singleton] at e3
      exact absurd e3.symm hx
    | hintPlain e1 e2 => cases e1; simp [location] at e2
    | hintEncoded e1 e2 => cases e1; simp [location] at e2
  · rintro ⟨hm, hg⟩
    rw [hm] at hg
    exact ⟨fname, c.take 4096, .hintPath rfl rfl (location_text h0 hl) (by rw [hsp]; simp) hp hx hr, hg⟩

/-- **C64** (the property "a valid licence is reported as OK" fails): if the library was built with a magic number other than 0, the
    first line never says "license OK". -/
theorem C64_magic_never_ok {cfg : Config} {r : Run} {fname : Bytes} {lines : List (Bytes × Bytes)}
    (h : verifyLicense cfg r fname = .ok lines) (hm : cfg.magic ≠ 0) :
    ∃ d rest, lines = (cfg.projectName, d) :: rest ∧ d ≠ okText := by
  obtain ⟨res, d, rest, h1, h2, h3, _⟩ := verifyLicense_split h
  refine ⟨d, rest, h3, fun hd => ?_⟩
  obtain ⟨f, src, text, k, _, _, _, hg⟩ := C01_license_ok_sound h1 (h2.mp hd)
  exact hm hg.magic.symm

theorem featureIs_caller {cfg : Config} {r : Run} {n f : Bytes} (h0 : 0 ∉ n) (h : FeatureIs cfg (some (caller r n)) f) :
    f = asked cfg n r.lastByte := by
  have key : TextIn (caller r n).featureName 16 (if n.length < 15 then n else if r.lastByte = 0 then n.take 15 else n.take 15 ++ [r.lastByte]) := by
    by_cases hn : n.length < 15
    · rw [if_pos hn]
      refine ⟨h0, .inl ⟨List.replicate (14 - n.length) 0 ++ [r.lastByte, UInt8.ofNat r.magic], ?_, by omega⟩⟩
      simp only [caller, fifteen]
      rw [List.take_append, List.take_of_length_le (by omega), List.take_replicate,
        show min (15 - n.length) 15 = (14 - n.length) + 1 by omega, List.replicate_succ]
      simp
    · rw [if_neg hn]
      have hf : fifteen n = n.take 15 := by
        simp only [fifteen]
        rw [List.take_append, show 15 - n.length = 0 by omega]; simp
      have h1 : 0 ∉ n.take 15 := fun h => h0 (List.mem_of_mem_take h)
      have hl : (n.take 15).length = 15 := by simp; omega
      split
      · rename_i hb
        exact ⟨h1, .inl ⟨[UInt8.ofNat r.magic], by simp [caller, hf, hb], by omega⟩⟩
      · rename_i hb
        exact ⟨by simp only [List.mem_append, List.mem_singleton, not_or]; exact ⟨h1, fun h => hb h.symm⟩,
          .inr ⟨UInt8.ofNat r.magic, [], by simp [caller, hf], by simp [hl]⟩⟩
  have hnil : (if n.length < 15 then n else if r.lastByte = 0 then n.take 15 else n.take 15 ++ [r.lastByte]) = [] ↔ n = [] := by
    constructor
    · intro h
      split at h
      · exact h
      · split at h
        · rename_i h1 _; simp at h; exact h
        · simp at h
    · rintro rfl; simp
  unfold asked
  cases h with
  | noName h =>
    have := textIn_unique key h
    rw [if_pos (hnil.mp this)]
  | named h hne =>
    have := textIn_unique key h
    rw [this] at hnil
    rw [if_neg (fun hn => hne (hnil.mpr hn)), this]

theorem sectionLines_mem {cfg : Config} {r : Run} {loc : LicenseLocation} : ∀ (ss : List (Bytes × Nat)) (i : Nat) (rest : List (Bytes × Bytes)),
    sectionLines cfg r loc i ss = .ok rest → (∀ n d, (n, d) ∈ rest → (∃ room, (n, room) ∈ ss) ∧ ∃ j res,
        acquire cfg (r.world j) (some (caller r n)) (some loc) (some r.info) = .ok res ∧ (d = okText ↔ res.ret = .licenseOk))
      ∧ (∀ n room, (n, room) ∈ ss → 15 ≤ room ∧ (fifteen n = cfg.projectName ∨ ∃ d, (n, d) ∈ rest)) := by
  intro ss
  induction ss with
  | nil => intro i rest h; simp only [sectionLines, Outcome.ok.injEq] at h; subst h; simp
  | cons x ss ih =>
    intro i rest h
    obtain ⟨n, room⟩ := x
    rw [sectionLines] at h
    split at h
    · simp at h
    rename_i hroom
    split at h
    · rename_i hfif
      obtain ⟨h1, h2⟩ := ih _ _ h
      refine ⟨fun m d hm => ?_, fun m rm hm => ?_⟩
      · obtain ⟨⟨rm, a⟩, b⟩ := h1 m d hm
        exact ⟨⟨rm, by simp [a]⟩, b⟩
      · rcases List.mem_cons.mp hm with hm | hm
        · cases hm; exact ⟨by omega, .inl hfif⟩
        · exact h2 m rm hm
    · obtain ⟨res, e1, h⟩ := Outcome.bind_eq_ok.mp h
      obtain ⟨line, e2, h⟩ := Outcome.bind_eq_ok.mp h
      obtain ⟨lines, e3, h⟩ := Outcome.bind_eq_ok.mp h
      obtain ⟨d0, e4, e5⟩ := verdict_of e1 n
      rw [e4] at e2
      simp only [Outcome.ok.injEq, Outcome.pure_eq] at e2 h
      subst e2; subst h
      obtain ⟨h1, h2⟩ := ih _ _ e3
      refine ⟨fun m d hm => ?_, fun m rm hm => ?_⟩
      · rcases List.mem_cons.mp hm with hm | hm
        · cases hm; exact ⟨⟨room, by simp⟩, i, res, e1, e5⟩
        · obtain ⟨⟨rm, a⟩, b⟩ := h1 m d hm
          exact ⟨⟨rm, by simp [a]⟩, b⟩
      · rcases List.mem_cons.mp hm with hm | hm
        · cases hm; exact ⟨by omega, .inr ⟨d0, by simp⟩⟩
        · obtain ⟨a, b⟩ := h2 m rm hm
          exact ⟨a, b.imp id (fun ⟨d, hd⟩ => ⟨d, by simp [hd]⟩)⟩

theorem names_no_nul {t : Text} (hw : t.WF) {n : Bytes} (h : Item.header n ∈ Text.items t) : 0 ∉ n := by
  simp only [Text.items, List.mem_filterMap] at h
  obtain ⟨⟨l, e⟩, hp, hl⟩ := h
  have hlw : l.WF := by
    clear hl
    induction t with
    | nil => simp at hp
    | cons p t ih =>
      obtain ⟨l', e'⟩ := p
      have := wf_cons hw
      rcases List.mem_cons.mp hp with hp | hp
      · cases hp; exact this.1
      · exact ih this.2 hp
  cases l <;> simp [Line.item] at hl
  subst hl
  intro h0
  exact (hlw.2.2.1 0 h0).2.2 rfl

/-- **C64**: the other lines belong to the sections of the file: one for each name (ignoring case) that is not skipped. -/
theorem C64_section_lines {cfg : Config} {r : Run} {fname : Bytes} {t : Text} (hw : t.WF) (_hc : Closed t) (hcon : r.content = some t.render)
    {p d0 : Bytes} {rest : List (Bytes × Bytes)} (h : verifyLicense cfg r fname = .ok ((p, d0) :: rest)) :
    (∀ n d, (n, d) ∈ rest → Item.header n ∈ Text.items t)
    ∧ (cfg.projectName.length < 15 → ∀ n, Item.header n ∈ Text.items t → ∃ n' d, (n', d) ∈ rest ∧ SameCI n' n) := by
  obtain ⟨res, d, rest', _, _, h3, h4⟩ := verifyLicense_split h
  cases h3
  rw [hcon, sections_text hw] at h4
  obtain ⟨h5, h6⟩ := sectionLines_mem _ _ _ h4
  have hsub : ∀ {x}, x ∈ firstOnly (textNames 1 false t) → x ∈ textNames 1 false t := by
    intro x hx
    obtain ⟨a, b, e, _⟩ := (mem_firstOnly _ _).mp hx
    rw [e]; simp
  constructor
  · intro n d hnd
    obtain ⟨⟨room, hr⟩, _⟩ := h5 n d hnd
    rcases mem_textNames _ _ _ (hsub hr) with h | ⟨_, h⟩
    · exact h
    · have := (h6 _ _ hr).1; omega
  · intro hp n hn
    obtain ⟨rm, hrm⟩ := header_mem_textNames t 1 false hn
    obtain ⟨n', rm', h7, h8⟩ := firstOnly_covers n _ ⟨rm, hrm⟩
    rcases (h6 _ _ h7).2 with h9 | ⟨d, hd⟩
    · have : (fifteen n').length = 15 := by simp [fifteen]
      rw [h9] at this; omega
    · exact ⟨n', d, hd, (sameName_iff _ _).mp h8⟩

/-- **C64**: the line of a section says "license OK" exactly if one of the texts found grants the feature of that name - cut after 15
    bytes, with a byte that nobody has set behind it - to a caller whose magic number nobody has set either. -/
theorem C64_section_verdict {cfg : Config} {r : Run} {fname : Bytes} {t : Text} (hw : t.WF) (hcl : Closed t) (hcon : r.content = some t.render)
    {p d0 : Bytes} {rest : List (Bytes × Bytes)} (h : verifyLicense cfg r fname = .ok ((p, d0) :: rest)) {now : Int}
    (hclock : ∀ j k, (r.world j).clock k = now) {n d : Bytes} (hnd : (n, d) ∈ rest) :
    ∃ j, (d = okText ↔ ∃ src text, Offers cfg (r.world j) (some (location fname)) src text
      ∧ Grants cfg (r.world j) r.magic (asked cfg n r.lastByte) text now) := by
  have h0 := names_no_nul hw ((C64_section_lines hw hcl hcon h).1 n d hnd)
  obtain ⟨res, _, rest', _, _, h3, h4⟩ := verifyLicense_split h
  cases h3
  obtain ⟨_, j, res, h5, h6⟩ := (sectionLines_mem _ _ _ h4).1 n d hnd
  refine ⟨j, h6.trans ?_⟩
  rw [C02_license_ok_iff h5 (hclock j)]
  constructor
  · rintro ⟨f, src, text, hf, ho, hg⟩
    rw [featureIs_caller h0 hf] at hg
    exact ⟨src, text, ho, hg⟩
  · rintro ⟨src, text, ho, hg⟩
    obtain ⟨f, _, _, hf', _⟩ := acquire_split h5
    have := featureIs_caller h0 hf'
    exact ⟨f, src, text, hf', ho, by rw [this]; exact hg⟩

/-- **C64** (the property "the tool works for any file" fails): if the library answers all calls, the tool reads beyond the end of the
    file exactly if an entry stands before the first section or the file ends less than 14 bytes behind the beginning of the name of a
    section. -/
theorem C64_overread_iff {cfg : Config} {r : Run} {fname : Bytes} {t : Text} (hw : t.WF) (hc : Closed t) (hcon : r.content = some t.render)
    (hl : fname.length ≤ 4096)
    (hret : ∀ j c, c = none ∨ (∃ n, Item.header n ∈ Text.items t ∧ c = some (caller r n)) →
      ∃ res, acquire cfg (r.world j) c (some (location fname)) (some r.info) = .ok res) :
    verifyLicense cfg r fname = .ub ↔ EarlyEntry t ∨ ShortEnd t := by
  rw [← short_iff hw hc, ← hcon]
  obtain ⟨res, h1⟩ := hret 0 none (.inl rfl)
  obtain ⟨d, h2, _⟩ := verdict_of h1 cfg.projectName
  have hv : verifyLicense cfg r fname = (do
      let lines ← sectionLines cfg r (location fname) 1 (sections r.content)
      return (cfg.projectName, d) :: lines) := by
    unfold verifyLicense
    rw [if_neg (by omega), h1, Outcome.ok_bind, h2, Outcome.ok_bind]
  have key : ∀ (ss : List (Bytes × Nat)) (i : Nat), (∀ n room, (n, room) ∈ ss → 15 ≤ room → Item.header n ∈ Text.items t) →
      (((∃ n room, (n, room) ∈ ss ∧ room < 15) → sectionLines cfg r (location fname) i ss = .ub)
      ∧ ((¬ ∃ n room, (n, room) ∈ ss ∧ room < 15) → ∃ ls, sectionLines cfg r (location fname) i ss = .ok ls)) := by
    intro ss
    induction ss with
    | nil => intro i _; exact ⟨by simp, fun _ => ⟨[], rfl⟩⟩
    | cons x ss ih =>
      intro i hss
      obtain ⟨n, room⟩ := x
      rw [sectionLines]
      by_cases hr : room < 15
      · simp only [hr, if_true]
        exact ⟨fun _ => trivial, fun h => absurd ⟨n, room, by simp, hr⟩ h⟩
      · obtain ⟨res, e1⟩ := hret i (some (caller r n)) (.inr ⟨n, hss n room (by simp) (by omega), rfl⟩)
        obtain ⟨d, e2, _⟩ := verdict_of e1 n
        have hrest : ∀ n room, (n, room) ∈ ss → 15 ≤ room → Item.header n ∈ Text.items t :=
          fun n room h => hss n room (by simp [h])
        have hex : (∃ m rm, (m, rm) ∈ (n, room) :: ss ∧ rm < 15) ↔ ∃ m rm, (m, rm) ∈ ss ∧ rm < 15 := by
          constructor
          · rintro ⟨m, rm, hm, hlt⟩
            rcases List.mem_cons.mp hm with hm | hm
            · cases hm; exact absurd hlt hr
            · exact ⟨m, rm, hm, hlt⟩
          · rintro ⟨m, rm, hm, hlt⟩; exact ⟨m, rm, by simp [hm], hlt⟩
        rw [hex, if_neg hr, e1]
        simp only [Outcome.ok_bind, e2]
        constructor
        · intro h
          rw [(ih i hrest).1 h, (ih (i + 1) hrest).1 h]
          simp
        · intro h
          obtain ⟨l1, q1⟩ := (ih i hrest).2 h
          obtain ⟨l2, q2⟩ := (ih (i + 1) hrest).2 h
          rw [q1, q2]
          simp only [Outcome.ok_bind, Outcome.pure_eq]
          split
          · exact ⟨_, rfl⟩
          · exact ⟨_, rfl⟩
  have hss : ∀ n room, (n, room) ∈ sections r.content → 15 ≤ room → Item.header n ∈ Text.items t := by
    intro n room h hr
    rw [hcon, sections_text hw] at h
    obtain ⟨a, b, e, _⟩ := (mem_firstOnly _ _).mp h
    rcases mem_textNames t 1 false (by rw [e]; simp : (n, room) ∈ _) with h | ⟨_, h⟩
    · exact h
    · omega
  obtain ⟨k1, k2⟩ := key _ 1 hss
  rw [hv]
  constructor
  · intro h
    apply Classical.byContradiction
    intro hn
    obtain ⟨ls, hls⟩ := k2 hn
    rw [hls] at h
    simp at h
  · intro h
    rw [k1 h]; rfl

/-! ## This computer -/

theorem identifier_text {m : Machine} {n : Int} {t : Bytes} (h : PcIdentifier m n t) : t.length = 14 ∧ 0 ∉ t := by
  have hg := (C51_identifier { m with logOverruns := false } n t).mpr ⟨pcIdentifier_log _ h, fun _ => rfl⟩
  obtain ⟨_, _, bytes, _, _, _⟩ := h
  simp only [generateUserPcSignature] at hg
  obtain ⟨_, _, hg⟩ := Outcome.bind_eq_ok.mp hg
  obtain ⟨s, hs, hg⟩ := Outcome.bind_eq_ok.mp hg
  obtain ⟨o, ho, hg⟩ := Outcome.bind_eq_ok.mp hg
  cases o with
  | none => simp at hg
  | some h =>
    simp only at hg
    obtain ⟨s', h1, h2, h3⟩ := print_length (h.setUseEnvVar (selectStrategy m.strategyVar n).2)
    rw [h1] at hg
    cases hg
    exact ⟨h2, h3⟩

/-- **C64**: about this computer the tool prints, for each of the four strategies, the identifier if there is one and NA if not, and
    then a text for each of the three facts about the environment. -/
theorem C64_this_computer {m : Machine} {h : Host} {e : Env} {mem : Bytes} (hx : m.exec = execSummary h) (he : mkEnv h = .ok e)
    (ha : m.adapters ≠ .ub) (hd : m.disks ≠ .ub) (hlog : m.logOverruns = false) (hmem : mem.length = 20) :
    ∃ (text : Int → Bytes) (a b c : Bytes), identifyLines m h mem = .ok [(b!"DEFAULT", text (-1)), (b!"MAC", text 0), (b!"IP", text 1),
        (b!"Disk", text 2), (b!"Virtualiz. class ", a), (b!"Virtualiz. detail", b), (b!"Cloud provider   ", c)]
      ∧ (∀ n t, PcIdentifier m n t → text n = t) ∧ (∀ n, (¬ ∃ t, PcIdentifier m n t) → text n = b!" NA")
      ∧ descByVirt (virtualization h e) = some a ∧ descByVirtDetail (virtualizationDetail h e) = some b
      ∧ descByCloudProvider (cloudProvider e) = some c := by
  have hexec : m.exec ≠ .ub := by rw [hx]; simp [execSummary, he]
  classical
  let text : Int → Bytes := fun n => if ht : ∃ t, PcIdentifier m n t then ht.choose else b!" NA"
  have text_spec : ∀ n, (∃ t, PcIdentifier m n t ∧ text n = t) ∨ (¬ (∃ t, PcIdentifier m n t) ∧ text n = b!" NA") := by
    intro n
    by_cases ht : ∃ t, PcIdentifier m n t
    · exact .inl ⟨ht.choose, ht.choose_spec, by simp only [text, dif_pos ht]⟩
    · exact .inr ⟨ht, by simp only [text, dif_neg ht]⟩
  clear_value text
  have hinfo : ∃ i : EnvInfo, i = ⟨cloudProvider e, virtualization h e, virtualizationDetail h e⟩ := ⟨_, rfl⟩
  obtain ⟨i, hi⟩ := hinfo
  have hstep : ∀ (n : Int) (label mem : Bytes) (ss : List (Int × Bytes)) (cache : Option Env) (info : Option EnvInfo), mem.length = 20 →
      (cache = none ∨ cache = some e) → ∃ mem', mem'.length = 20 ∧ identifyLoop m h ((n, label) :: ss) mem 20 cache info
        = (do let (lines, info) ← identifyLoop m h ss mem' 20 (some e) (some i)
              return ((label, text n) :: lines, info)) := by
    intro n label mem ss cache info hl hcache
    obtain ⟨q1, q2⟩ := C51_identify_pc m n mem 20 (by omega) (by omega) ha hd hexec hlog
    rcases text_spec n with ⟨t, h1, h2⟩ | ⟨h1, h2⟩
    · obtain ⟨l1, l2⟩ := identifier_text h1
      refine ⟨t ++ 0 :: mem.drop 15, by simp [l1, hl], ?_⟩
      have htw : (t ++ 0 :: mem.drop 15).takeWhile (fun x => !decide (x = 0)) = t := by
        rw [takeWhile_append_stops (fun c hc => by
          have : c ≠ 0 := fun hz => l2 (hz ▸ hc)
          simpa using this) (stops_cons (by simp))]
      rw [identifyLoop]
      rcases hcache with rfl | rfl <;> simp [identifyPcEnv, q1 t h1, he, htw, h2, ← hi]
    · refine ⟨mem, hl, ?_⟩
      rw [identifyLoop]
      rcases hcache with rfl | rfl <;> simp [identifyPcEnv, q2 h1, he, h2, ← hi]
  obtain ⟨a, ha'⟩ : ∃ a, descByVirt (virtualization h e) = some a := by cases virtualization h e <;> exact ⟨_, rfl⟩
  obtain ⟨b, hb'⟩ : ∃ b, descByVirtDetail (virtualizationDetail h e) = some b := by cases virtualizationDetail h e <;> exact ⟨_, rfl⟩
  obtain ⟨c, hc'⟩ : ∃ c, descByCloudProvider (cloudProvider e) = some c := by cases cloudProvider e <;> exact ⟨_, rfl⟩
  refine ⟨text, a, b, c, ?_, ?_, ?_, ha', hb', hc'⟩
  · unfold identifyLines strategies
    obtain ⟨m1, l1, e1⟩ := hstep (-1) (b!"DEFAULT") mem [(0, b!"MAC"), (1, b!"IP"), (2, b!"Disk")] none none hmem (.inl rfl)
    obtain ⟨m2, l2, e2⟩ := hstep 0 (b!"MAC") m1 [(1, b!"IP"), (2, b!"Disk")] (some e) (some i) l1 (.inr rfl)
    obtain ⟨m3, l3, e3⟩ := hstep 1 (b!"IP") m2 [(2, b!"Disk")] (some e) (some i) l2 (.inr rfl)
    obtain ⟨m4, l4, e4⟩ := hstep 2 (b!"Disk") m3 [] (some e) (some i) l3 (.inr rfl)
    rw [e1, e2, e3, e4, identifyLoop]
    simp only [Outcome.ok_bind, Outcome.pure_eq, hi, ha', hb', hc', lookup]
    rfl
  · intro n t ht
    rcases text_spec n with ⟨t', h1, h2⟩ | ⟨h1, _⟩
    · rw [h2]; exact C51_identifier_unique m n _ _ h1 ht
    · exact absurd ⟨t, ht⟩ h1
  · intro n hn
    rcases text_spec n with ⟨t', h1, h2⟩ | ⟨_, h2⟩
    · exact absurd ⟨t', h1⟩ hn
    · exact h2

/-! ### Concrete cases -/

/-- The sample licence as lines. -/
def sampleLines : Text := [(.header [] [] (b!"TEST") [] [], [10]), (.entry [] (b!"lic_ver") (b!" ") (b!" ") (b!"200") [], [10]),
  (.entry [] (b!"valid-from") [] [] (b!"2020-01-01") [], [10]), (.entry [] (b!"valid-to") (b!" ") (b!" ") (b!"20300101") [], [10]),
  (.entry [] (b!"sig") (b!" ") (b!" ") (b!"QUJD") [], [10])]

theorem sampleLines_wf : sampleLines.WF := by
  unfold sampleLines
  simp only [Text.WF]
  refine ⟨?_, .inl rfl, ?_, .inl rfl, ?_, .inl rfl, ?_, .inl rfl, ?_, .inl (.inl rfl)⟩ <;>
    simp [Line.WF, Blank, IniSpace, OneLine, Trimmed]

example : sampleLines.render = sampleText ∧ Closed sampleLines := by unfold Closed; decide +kernel

def sampleRun (now : Int) : Run := ⟨fun _ => sampleWorld now, some sampleText, 5, 0, ⟨[], 0, false, false, none⟩⟩

/-- Magic number 0 and 5: the genuine licence is refused in the first line or, unless the junk happens to be right, in the second. -/
example : verifyLicense { sampleConfig with magic := 0 } (sampleRun sampleNow) (b!"/opt/app.lic")
      = .ok [(b!"TEST", okText), (b!"TEST", b!"license signature didn't match with current license ")] ∧
    verifyLicense sampleConfig (sampleRun sampleNow) (b!"/opt/app.lic")
      = .ok [(b!"TEST", b!"license signature didn't match with current license "), (b!"TEST", okText)] := by decide +kernel

/-- A file of eight bytes is overread. -/
example : verifyLicense sampleConfig { sampleRun sampleNow with content := some (b!"[x]
a=1
") } (b!"/opt/app.lic") = .ub := by decide +kernel

example : ShortEnd [(.header [] [] (b!"x") [] [], [10]), (.entry [] (b!"a") [] [] (b!"1") [], [10])] :=
  ⟨[], _, [10], [], [], b!"x", [], [], rfl, by simp [Text.items], by decide⟩

example : ∀ (j : Nat) (c : Option Caller), c = none ∨ (∃ n, Item.header n ∈ Text.items sampleLines ∧ c = some (caller (sampleRun sampleNow) n)) →
    ∃ res, acquire sampleConfig ((sampleRun sampleNow).world j) c (some (location (b!"/opt/app.lic"))) (some (sampleRun sampleNow).info) = .ok res := by
  have hok : ∀ c, retOf (acquire sampleConfig (sampleWorld sampleNow) c (some (location (b!"/opt/app.lic"))) (some ⟨[], 0, false, false, none⟩)) ≠ none →
      ∃ res, acquire sampleConfig (sampleWorld sampleNow) c (some (location (b!"/opt/app.lic"))) (some ⟨[], 0, false, false, none⟩) = .ok res := by
    intro c h
    cases h1 : acquire sampleConfig (sampleWorld sampleNow) c (some (location (b!"/opt/app.lic"))) (some ⟨[], 0, false, false, none⟩) with
    | ok r => exact ⟨r, rfl⟩
    | throw e => simp [h1, retOf] at h
    | ub => simp [h1, retOf] at h
  rintro j c (rfl | ⟨n, hn, rfl⟩)
  · exact hok _ (by decide +kernel)
  · have : n = b!"TEST" := by simpa [sampleLines, items_cons, Line.item, Text.items] using hn
    subst this
    exact hok _ (by decide +kernel)

example : identifyLines { bareMachine with exec := execSummary sampleHost, adapters := .ok (.ok, [⟨⟨2, 0, 0, 0, 0, 1⟩, ⟨10, 0, 0, 1⟩⟩]) }
    sampleHost (List.replicate 20 7) = .ok [(b!"DEFAULT", b!" NA"), (b!"MAC", b!"AAAC-AAAA-AAE="), (b!"IP", b!"ACAK-AAAB-Kio="),
      (b!"Disk", b!" NA"), (b!"Virtualiz. class ", b!"Container"), (b!"Virtualiz. detail", b!"Other type of vm"),
      (b!"Cloud provider   ", b!"Provider unknown")] := by decide +kernel

end Licensecc.Inspector
