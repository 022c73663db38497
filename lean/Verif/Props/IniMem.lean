import Verif.Model.IniMem
import Verif.Props.Ini
/-!
# C65: the parser works inside its copy of the text
-/
namespace Licensecc.IniMem
open Licensecc.Ini Licensecc.Spec

/-! ## Segments of the array -/

/-- The bytes `x` stand in the array from `p` on. -/
def Seg (m : Bytes) (p : Nat) (x : Bytes) : Prop := ∀ i c, x[i]? = some c → m[p + i]? = some c

theorem seg_nil (m : Bytes) (p : Nat) : Seg m p [] := by intro i c h; simp at h

theorem seg_cons {m : Bytes} {p : Nat} {c : UInt8} {x : Bytes} : Seg m p (c :: x) ↔ m[p]? = some c ∧ Seg m (p + 1) x := by
  constructor
  · intro h
    refine ⟨h 0 c (by simp), fun i d hd => ?_⟩
    have := h (i + 1) d (by simpa using hd)
    rw [show p + 1 + i = p + (i + 1) by omega]; exact this
  · rintro ⟨h1, h2⟩ i d hd
    cases i with
    | zero => simp at hd; subst hd; exact h1
    | succ i =>
      have := h2 i d (by simpa using hd)
      rw [show p + (i + 1) = p + 1 + i by omega]; exact this

theorem seg_append {m : Bytes} {x y : Bytes} : ∀ {p : Nat}, Seg m p (x ++ y) ↔ Seg m p x ∧ Seg m (p + x.length) y := by
  induction x with
  | nil => intro p; simp [seg_nil]
  | cons c x ih =>
    intro p
    rw [List.cons_append, seg_cons, seg_cons, ih]
    simp only [List.length_cons]
    rw [show p + (x.length + 1) = p + 1 + x.length by omega, and_assoc]

/-- The arrays have the same size and agree below `b`. -/
def Same (m m' : Bytes) (b : Nat) : Prop := m'.length = m.length ∧ ∀ i, i < b → m'[i]? = m[i]?

theorem Same.refl (m : Bytes) (b : Nat) : Same m m b := ⟨rfl, fun _ _ => rfl⟩
theorem Same.trans {m m' m'' : Bytes} {b : Nat} (h : Same m m' b) (h' : Same m' m'' b) : Same m m'' b :=
  ⟨h'.1.trans h.1, fun i hi => (h'.2 i hi).trans (h.2 i hi)⟩
theorem Same.mono {m m' : Bytes} {b c : Nat} (h : Same m m' b) (hc : c ≤ b) : Same m m' c :=
  ⟨h.1, fun i hi => h.2 i (by omega)⟩

theorem same_set {m : Bytes} {q b : Nat} {c : UInt8} (h : b ≤ q) : Same m (m.set q c) b :=
  ⟨by simp, fun i hi => by rw [List.getElem?_set_ne (by omega)]⟩

theorem seg_same {m m' : Bytes} {b p : Nat} {x : Bytes} (h : Same m m' b) (hx : Seg m p x) (hl : p + x.length ≤ b) : Seg m' p x := by
  intro i c hc
  have hi : i < x.length := (List.getElem?_eq_some_iff.mp hc).1
  rw [h.2 _ (by omega)]; exact hx i c hc

theorem seg_set {m : Bytes} {q p : Nat} {c : UInt8} {x : Bytes} (hx : Seg m p x) (h : q < p ∨ p + x.length ≤ q) :
    Seg (m.set q c) p x := by
  intro i d hd
  have hi : i < x.length := (List.getElem?_eq_some_iff.mp hd).1
  rw [List.getElem?_set_ne (by omega)]; exact hx i d hd

theorem seg_lt {m : Bytes} {p : Nat} {x : Bytes} (hx : Seg m p x) (h : x ≠ []) : p + x.length ≤ m.length := by
  have hpos : 0 < x.length := List.length_pos_iff.mpr h
  have := hx (x.length - 1) _ (List.getElem?_eq_getElem (by omega))
  have := (List.getElem?_eq_some_iff.mp this).1
  omega

/-- The text `r` stands at `p`, with the terminator behind it. -/
def At (m : Bytes) (p : Nat) (r : Bytes) : Prop := 0 ∉ r ∧ Seg m p (r ++ [0])

theorem At.lt {m : Bytes} {p : Nat} {r : Bytes} (h : At m p r) : p + r.length < m.length := by
  have := seg_lt h.2 (by simp)
  simp at this; omega

theorem At.nil {m : Bytes} {p : Nat} (h : At m p []) : rd m p = .ok 0 := by
  have := (seg_cons.mp h.2).1
  unfold rd; rw [this]

theorem At.cons {m : Bytes} {p : Nat} {c : UInt8} {r : Bytes} (h : At m p (c :: r)) : rd m p = .ok c ∧ c ≠ 0 ∧ At m (p + 1) r := by
  obtain ⟨h1, h2⟩ := h
  simp only [List.mem_cons, not_or] at h1
  obtain ⟨h3, h4⟩ := seg_cons.mp h2
  exact ⟨by unfold rd; rw [h3], fun h => h1.1 h.symm, h1.2, h4⟩

theorem At.append {m : Bytes} {p : Nat} {x r : Bytes} (h : At m p (x ++ r)) : Seg m p x ∧ 0 ∉ x ∧ At m (p + x.length) r := by
  obtain ⟨h1, h2⟩ := h
  simp only [List.mem_append, not_or] at h1
  rw [List.append_assoc, seg_append] at h2
  exact ⟨h2.1, h1.1, h1.2, h2.2⟩

theorem At.set {m : Bytes} {p q : Nat} {c : UInt8} {r : Bytes} (h : At m p r) (hq : q < p) : At (m.set q c) p r :=
  ⟨h.1, seg_set h.2 (.inl hq)⟩

theorem wr_ok {m : Bytes} {p : Nat} {c : UInt8} (h : p < m.length) : wr m p c = .ok (m.set p c) := if_pos h

theorem rd_seg {m : Bytes} {p : Nat} {c : UInt8} {x : Bytes} (h : Seg m p (c :: x)) : rd m p = .ok c := by
  unfold rd; rw [(seg_cons.mp h).1]

/-! ## Loops -/

theorem scan_at {cond : UInt8 → Bool} {m : Bytes} (r : Bytes) : ∀ {p fuel : Nat}, At m p r → r.length < fuel →
    scan cond m fuel p = .ok (p + (r.takeWhile cond).length) := by
  induction r with
  | nil =>
    intro p fuel h hf
    cases fuel with
    | zero => omega
    | succ fuel => rw [scan, h.nil]; simp
  | cons c r ih =>
    intro p fuel h hf
    obtain ⟨h1, h2, h3⟩ := h.cons
    cases fuel with
    | zero => omega
    | succ fuel =>
      rw [scan, h1, Outcome.ok_bind]
      by_cases hc : cond c = true
      · rw [if_pos ⟨h2, hc⟩, ih h3 (by simp at hf; omega), List.takeWhile_cons_of_pos hc]
        simp; omega
      · rw [if_neg (fun h => hc h.2), List.takeWhile_cons_of_neg hc]; simp

theorem mem_takeWhile_holds {cond : UInt8 → Bool} (l : Bytes) : ∀ c ∈ l.takeWhile cond, cond c = true := by
  induction l with
  | nil => simp
  | cons a l ih =>
    intro c hc
    rw [List.takeWhile_cons] at hc
    split at hc
    · rename_i h; rcases List.mem_cons.mp hc with rfl | hc
      · exact h
      · exact ih c hc
    · simp at hc

theorem set_same {m : Bytes} {p : Nat} {c : UInt8} (h : m[p]? = some c) : m.set p c = m := by
  obtain ⟨h1, rfl⟩ := List.getElem?_eq_some_iff.mp h
  exact List.set_getElem_self h1

/-- A scan from `p`: the text passed and the text that remains. -/
theorem scan_split {cond : UInt8 → Bool} {m : Bytes} {r : Bytes} {p : Nat} (h : At m p r) : ∃ x y, r = x ++ y
    ∧ x = r.takeWhile cond ∧ y = r.dropWhile cond ∧ (∀ c ∈ x, cond c = true) ∧ Stops cond y
    ∧ scan cond m (m.length + 1) p = .ok (p + x.length) ∧ Seg m p x ∧ 0 ∉ x ∧ At m (p + x.length) y := by
  have hl := h.lt
  refine ⟨r.takeWhile cond, r.dropWhile cond, List.takeWhile_append_dropWhile.symm, rfl, rfl, ?_, ?_,
    scan_at r h (by omega), ?_⟩
  · exact fun c hc => mem_takeWhile_holds r c hc
  · intro c hc
    have := List.head?_dropWhile_not cond r
    rw [hc] at this
    simpa using this
  · refine At.append ?_
    rw [List.takeWhile_append_dropWhile]; exact h

theorem trimRight_snoc (x : Bytes) (c : UInt8) : trimRight (x ++ [c]) = if isSp c then trimRight x else x ++ [c] := by
  unfold trimRight
  rw [List.reverse_append, List.reverse_singleton, List.singleton_append, List.dropWhile_cons]
  split <;> simp

theorem trimBack_seg {m : Bytes} {p : Nat} (x : Bytes) : Seg m p x → trimBack m p (p + x.length) = .ok (p + (trimRight x).length) := by
  induction x using snocInd with
  | h0 =>
    intro _
    simp only [List.length_nil, Nat.add_zero, trimRight, List.reverse_nil, List.dropWhile_nil]
    cases p with
    | zero => rfl
    | succ p => rw [trimBack, if_neg (by omega)]
  | h1 x c ih =>
    intro h
    obtain ⟨h1, h2⟩ := seg_append.mp h
    rw [List.length_append, List.length_singleton, ← Nat.add_assoc, trimBack, if_pos (by omega), rd_seg h2, Outcome.ok_bind, trimRight_snoc]
    cases isSp c with
    | true => simp only [if_true]; exact ih h1
    | false => simp; omega

theorem trimRight_prefix (x : Bytes) : ∃ y, x = trimRight x ++ y := by
  refine ⟨(x.reverse.takeWhile isSp).reverse, ?_⟩
  unfold trimRight
  rw [← List.reverse_append, List.takeWhile_append_dropWhile, List.reverse_reverse]

/-- Trimming a text and ending it with a NUL; `e` follows the text. -/
theorem trim_write {m : Bytes} {p : Nat} {x : Bytes} (h : Seg m p x) (hl : p + x.length < m.length) :
    ∃ m' t, trimBack m p (p + x.length) = .ok t ∧ wr m t 0 = .ok m' ∧ Same m m' p ∧ Seg m' p (trimRight x ++ [0])
      ∧ p + (trimRight x).length ≤ p + x.length ∧ m' = m.set t 0 ∧ t = p + (trimRight x).length := by
  obtain ⟨y, hy⟩ := trimRight_prefix x
  have hlen : x.length = (trimRight x).length + y.length := by
    rw [← List.length_append, ← hy]
  refine ⟨m.set (p + (trimRight x).length) 0, _, trimBack_seg x h, wr_ok (by omega), same_set (by omega), ?_, by omega, rfl, rfl⟩
  rw [seg_append]
  refine ⟨seg_set ?_ (.inr (by omega)), ?_⟩
  · rw [hy] at h; exact (seg_append.mp h).1
  · rw [seg_cons]
    refine ⟨?_, seg_nil _ _⟩
    rw [List.getElem?_set_self (by omega)]

/-! ## Line breaks and comments -/

theorem skipNewLine_at {m : Bytes} {p : Nat} {c : UInt8} {r : Bytes} (h : At m p (c :: r)) :
    ∃ q, skipNewLine m p = .ok q ∧ At m q (Ini.skipNewLine (c :: r)) ∧ p < q ∧ q ≤ p + 2 := by
  obtain ⟨h1, _, h3⟩ := h.cons
  unfold skipNewLine
  rw [h1, Outcome.ok_bind]
  by_cases hc : c = 13
  · subst hc
    rw [if_pos rfl]
    cases r with
    | nil =>
      rw [h3.nil, Outcome.ok_bind]
      exact ⟨p + 1, rfl, h3, by omega, by omega⟩
    | cons d r =>
      obtain ⟨g1, _, g3⟩ := h3.cons
      rw [g1, Outcome.ok_bind]
      by_cases hd : d = 10
      · subst hd
        exact ⟨p + 2, rfl, g3, by omega, by omega⟩
      · rw [if_neg hd]
        refine ⟨p + 1, rfl, ?_, by omega, by omega⟩
        unfold Ini.skipNewLine
        split
        · rename_i heq; simp only [List.cons.injEq] at heq; exact absurd heq.2.1 hd
        · rename_i heq; simp only [List.cons.injEq] at heq; rw [← heq.2]; exact h3
        · rename_i heq; simp at heq
  · rw [if_neg hc]
    refine ⟨p + 1, rfl, ?_, by omega, by omega⟩
    unfold Ini.skipNewLine
    split
    · rename_i heq; simp only [List.cons.injEq] at heq; exact absurd heq.1 hc
    · rename_i heq; simp only [List.cons.injEq] at heq; rw [← heq.2]; exact h3
    · rename_i heq; simp at heq

theorem isSp_of_nl {c : UInt8} (h : isNL c = true) : isSp c = true := isSp_of_isNL h

/-- Skipping one line break skips white space only. -/
theorem skipNewLine_drop {c : UInt8} {r : Bytes} (h : isNL c = true) : (Ini.skipNewLine (c :: r)).dropWhile isSp = (c :: r).dropWhile isSp := by
  have hc := isSp_of_isNL h
  rw [List.dropWhile_cons_of_pos hc]
  unfold Ini.skipNewLine
  split
  · rename_i heq; simp only [List.cons.injEq] at heq
    rw [heq.2, List.dropWhile_cons_of_pos (by decide)]
  · rename_i heq; simp only [List.cons.injEq] at heq; rw [heq.2]
  · rename_i heq; simp at heq

theorem skipNewLine_shorter (c : UInt8) (r : Bytes) : (Ini.skipNewLine (c :: r)).length ≤ r.length := by
  have := skipNewLine_length (c :: r); simpa using this

theorem readAhead_at {m : Bytes} : ∀ (fuel : Nat) (r : Bytes) (p n : Nat), At m p r → r.length < fuel →
    ∃ q k, readAhead m fuel p n = .ok (q, n + k) ∧ At m q (r.dropWhile isSp) ∧ p + k ≤ q ∧ (r.dropWhile isSp ≠ r → p < q) := by
  intro fuel
  induction fuel with
  | zero => intro r p n _ h; omega
  | succ fuel ih =>
    intro r p n h hf
    rw [readAhead]
    cases r with
    | nil =>
      rw [h.nil, Outcome.ok_bind, if_neg (by decide)]
      exact ⟨p, 0, rfl, by simpa using h, by omega, by simp⟩
    | cons c r =>
      obtain ⟨h1, _, h3⟩ := h.cons
      rw [h1, Outcome.ok_bind]
      cases hs : isSp c with
      | false =>
        rw [if_neg (by simp)]
        have : (c :: r).dropWhile isSp = c :: r := by rw [List.dropWhile_cons_of_neg (by simp [hs])]
        rw [this]
        exact ⟨p, 0, rfl, h, by omega, by simp⟩
      | true =>
        rw [if_pos rfl]
        cases hn : isNL c with
        | true =>
          obtain ⟨q, q1, q2, q3, q4⟩ := skipNewLine_at h
          rw [if_pos rfl, q1, Outcome.ok_bind]
          have := skipNewLine_shorter c r
          obtain ⟨z, k, z1, z2, z3, _⟩ := ih _ q (n + 1) q2 (by simp at hf; omega)
          rw [skipNewLine_drop hn] at z2
          exact ⟨z, k + 1, by rw [z1]; congr 2; omega, z2, by omega, fun _ => by omega⟩
        | false =>
          rw [if_neg (by simp)]
          obtain ⟨z, k, z1, z2, z3, _⟩ := ih r (p + 1) n h3 (by simp at hf; omega)
          rw [List.dropWhile_cons_of_pos hs]
          exact ⟨z, k, z1, z2, by omega, fun _ => by omega⟩

theorem newLines_ok : ∀ (n : Nat) (m : Bytes) (d q : Nat) (r : Bytes) (b : Nat), At m q r → d + n ≤ q → b ≤ d →
    ∃ m', newLines n m d = .ok m' ∧ At m' q r ∧ Same m m' b := by
  intro n
  induction n with
  | zero => intro m d q r b h _ _; exact ⟨m, rfl, h, Same.refl m b⟩
  | succ n ih =>
    intro m d q r b h hd hb
    have := h.lt
    rw [newLines, wr_ok (by omega), Outcome.ok_bind]
    obtain ⟨m', h1, h2, h3⟩ := ih (m.set d 10) (d + 1) q r b (h.set (by omega)) (by omega) (by omega)
    exact ⟨m', h1, h2, (same_set hb).trans h3⟩

theorem moveLine_ok {m : Bytes} {d p e : Nat} {y : Bytes} {b : Nat} (h : At m e y) (hd : d ≤ p) (hp : p ≤ e) (hb : b ≤ d) :
    ∃ m', moveLine m d p e = .ok m' ∧ At m' e y ∧ Same m m' b := by
  unfold moveLine
  have hl := h.lt
  by_cases hlt : d < p
  · rw [if_pos hlt]
    unfold move
    rw [if_pos ⟨by omega, by omega⟩, Outcome.ok_bind]
    have hlen : (m.take d ++ (m.drop p).take (e - p) ++ m.drop (d + (e - p))).length = m.length := by
      simp only [List.length_append, List.length_take, List.length_drop]; omega
    have hlow : ∀ i, i < d → (m.take d ++ (m.drop p).take (e - p) ++ m.drop (d + (e - p)))[i]? = m[i]? := by
      intro i hi
      rw [List.append_assoc, List.getElem?_append_left (by rw [List.length_take]; omega), List.getElem?_take_of_lt hi]
    have hhigh : ∀ i, d + (e - p) ≤ i → (m.take d ++ (m.drop p).take (e - p) ++ m.drop (d + (e - p)))[i]? = m[i]? := by
      intro i hi
      have h1 : (m.take d ++ (m.drop p).take (e - p)).length = d + (e - p) := by
        simp only [List.length_append, List.length_take, List.length_drop]; omega
      rw [List.getElem?_append_right (by omega), h1, List.getElem?_drop]
      congr 1; omega
    rw [wr_ok (by omega)]
    refine ⟨_, rfl, ⟨h.1, seg_set (fun i c hc => ?_) (.inl (by omega))⟩, ?_⟩
    · rw [hhigh _ (by omega)]; exact h.2 i c hc
    · exact Same.trans ⟨hlen, fun i hi => hlow i (by omega)⟩ (same_set (by omega))
  · rw [if_neg hlt]
    exact ⟨m, rfl, h, Same.refl m b⟩

theorem commentLoop_at (allowBlank : Bool) : ∀ (fuel : Nat) (m : Bytes) (p d : Nat) (r : Bytes) (b : Nat), At m p r → d ≤ p → b ≤ d →
    r.length < fuel → ∃ l r', commentLoop allowBlank fuel m p d = .ok l ∧ At l.mem l.data r' ∧ parse r' = parse r ∧ Same m l.mem b
      ∧ r'.length ≤ r.length ∧ p ≤ l.data ∧ (startsComment r = true → r'.length < r.length ∧ p < l.data)
      ∧ (l.ended = false → l.dataLine ≤ l.data ∧ d ≤ l.dataLine ∧ (l.data ≠ p → d < l.dataLine)) := by
  intro fuel
  induction fuel with
  | zero => intro m p d r b _ _ _ h; omega
  | succ fuel ih =>
    intro m p d r b h hd hb hf
    rw [commentLoop]
    have hcase : ∃ c, rd m p = .ok c ∧ isComment c = startsComment r := by
      cases r with
      | nil => exact ⟨0, h.nil, by decide⟩
      | cons c r => exact ⟨c, h.cons.1, rfl⟩
    obtain ⟨c0, hc0, hs0⟩ := hcase
    rw [hc0, Outcome.ok_bind, hs0]
    cases hs : startsComment r with
    | true =>
      rw [if_pos rfl]
      obtain ⟨x, y, hxy, hx, hy, _, hstop, e1, e2, e3, e4⟩ := scan_split (cond := fun c => !isNL c) h
      rw [e1, Outcome.ok_bind]
      obtain ⟨m1, f1, f2, f3⟩ := moveLine_ok e4 hd (by omega : p ≤ p + x.length) hb
      rw [f1, Outcome.ok_bind]
      have hparse : ∀ n, parse r = parse (loadComment true n r) := fun n => (parse_loadComment r.length r (Nat.le_refl _) true n).symm
      have hne : x ≠ [] := by
        cases r with
        | nil => simp [startsComment] at hs
        | cons c r =>
          rw [hx, List.takeWhile_cons_of_pos (by simpa using isNL_of_comment hs)]
          simp
      have hxpos : 0 < x.length := List.length_pos_iff.mpr hne
      have hlen : r.length = x.length + y.length := by rw [hxy, List.length_append]
      cases y with
      | nil =>
        rw [f2.nil, Outcome.ok_bind, wr_ok (by have := f2.lt; omega), Outcome.ok_bind, if_pos rfl]
        have hset : m1.set (p + x.length) 0 = m1 := by
          exact set_same (seg_cons.mp f2.2).1
        refine ⟨_, [], rfl, ?_, ?_, ?_, by simp, by simp, fun _ => by simp at hlen ⊢; omega, by simp⟩
        · simp only [hset]; exact f2
        · have := hparse r.length
          rw [this]
          cases r with
          | nil => rfl
          | cons c r =>
            rw [List.length_cons, loadComment_step hs]
            have : r.dropWhile (fun c => !isNL c) = [] := by
              rw [List.dropWhile_cons_of_pos (by simpa using isNL_of_comment hs)] at hy
              exact hy.symm
            rw [if_pos this]
        · simp only [hset]; exact f3
      | cons c y =>
        obtain ⟨g1, g2, g3⟩ := f2.cons
        have hnl : isNL c = true := by have := hstop c rfl; simpa using this
        have hlt := f2.lt
        simp only [List.length_cons] at hlt hlen
        rw [g1, Outcome.ok_bind, wr_ok (by omega), Outcome.ok_bind, if_neg g2, wr_ok (by simp; omega), Outcome.ok_bind, List.set_set]
        have hset : m1.set (p + x.length) c = m1 := set_same (seg_cons.mp f2.2).1
        rw [hset]
        obtain ⟨q, q1, q2, q3, _⟩ := skipNewLine_at f2
        rw [q1, Outcome.ok_bind, show p + x.length - p = x.length by omega, wr_ok (by omega), Outcome.ok_bind]
        have hsh := skipNewLine_shorter c y
        obtain ⟨l, r', l1, l2, l3, l4, l5, l6, l7, l8⟩ := ih (m1.set (d + x.length) 10) q (d + x.length + 1) (Ini.skipNewLine (c :: y)) b
          (q2.set (by omega)) (by omega) (by omega) (by omega)
        refine ⟨l, r', l1, l2, ?_, (f3.trans (same_set (by omega))).trans l4, by omega, by omega, fun _ => ⟨by omega, by omega⟩, fun he => ?_⟩
        · rw [l3, hparse r.length]
          cases r with
          | nil => simp [startsComment] at hs
          | cons c' r =>
            rw [List.length_cons, loadComment_step hs]
            have : r.dropWhile (fun c => !isNL c) = c :: y := by
              rw [List.dropWhile_cons_of_pos (by simpa using isNL_of_comment hs)] at hy
              exact hy.symm
            rw [this, if_neg (by simp)]
            exact (parse_loadComment _ _ (Nat.le_refl _) _ _).symm
        · obtain ⟨a1, a2, _⟩ := l8 he
          exact ⟨a1, by omega, fun _ => by omega⟩
    | false =>
      rw [if_neg (by simp)]
      cases allowBlank with
      | false =>
        rw [if_neg (by simp)]
        exact ⟨_, r, rfl, h, rfl, Same.refl m b, Nat.le_refl _, Nat.le_refl _, by simp, fun _ => ⟨hd, Nat.le_refl _, by simp⟩⟩
      | true =>
        rw [if_pos rfl]
        have hlt := h.lt
        obtain ⟨q, k, q1, q2, q3, q4⟩ := readAhead_at (m.length + 1) r p 0 h (by omega)
        rw [q1, Outcome.ok_bind]
        simp only [Nat.zero_add]
        have hcase : ∃ c, rd m q = .ok c ∧ isComment c = startsComment (r.dropWhile isSp) := by
          cases hr : r.dropWhile isSp with
          | nil => rw [hr] at q2; exact ⟨0, q2.nil, by decide⟩
          | cons c z => rw [hr] at q2; exact ⟨c, q2.cons.1, rfl⟩
        obtain ⟨c1, hc1, hs1⟩ := hcase
        rw [hc1, Outcome.ok_bind, hs1]
        cases hs2 : startsComment (r.dropWhile isSp) with
        | false =>
          rw [if_neg (by simp)]
          exact ⟨_, r, rfl, h, rfl, Same.refl m b, Nat.le_refl _, Nat.le_refl _, by simp, fun _ => ⟨hd, Nat.le_refl _, by simp⟩⟩
        | true =>
          rw [if_pos rfl]
          have hne : r.dropWhile isSp ≠ r := by intro h0; rw [h0, hs] at hs2; simp at hs2
          have hpq := q4 hne
          obtain ⟨m1, n1, n2, n3⟩ := newLines_ok k m d q _ b q2 (by omega) hb
          rw [n1, Outcome.ok_bind]
          have hle : (r.dropWhile isSp).length < r.length := by
            have := List.takeWhile_append_dropWhile (p := isSp) (l := r)
            have h2 := congrArg List.length this
            rw [List.length_append] at h2
            have : (r.takeWhile isSp).length ≠ 0 := by
              intro h0
              rw [List.length_eq_zero_iff.mp h0, List.nil_append] at this
              exact hne this
            omega
          obtain ⟨l, r', l1, l2, l3, l4, l5, l6, l7, l8⟩ := ih m1 q (d + k) _ b n2 (by omega) (by omega) (by omega)
          refine ⟨l, r', l1, l2, by rw [l3, parse_dropSpace], n3.trans l4, by omega, by omega, by simp, fun he => ?_⟩
          obtain ⟨a1, a2, a3⟩ := l8 he
          refine ⟨a1, by omega, fun _ => ?_⟩
          have := a3 (by have := (l7 hs2).2; omega)
          omega

/-- After a comment (or none) the rest of the text is still there; nothing before the comment has changed. -/
theorem loadMultiLineText_at (allowBlank : Bool) {m : Bytes} {p : Nat} {r : Bytes} (h : At m p r) :
    ∃ m' p' r', loadMultiLineText allowBlank m p = .ok (m', p') ∧ At m' p' r' ∧ parse r' = parse r ∧ Same m m' p
      ∧ r'.length ≤ r.length ∧ p ≤ p' ∧ (startsComment r = true → r'.length < r.length) := by
  unfold loadMultiLineText
  have hl := h.lt
  obtain ⟨l, r', l1, l2, l3, l4, l5, l6, l7, l8⟩ := commentLoop_at allowBlank (m.length + 1) m p p r p h (Nat.le_refl _) (Nat.le_refl _)
    (by omega)
  rw [l1, Outcome.ok_bind]
  cases he : l.ended with
  | true =>
    rw [if_pos rfl]
    exact ⟨_, _, r', rfl, l2, l3, l4, l5, l6, fun hs => (l7 hs).1⟩
  | false =>
    rw [if_neg (by simp)]
    by_cases hp : p = l.data
    · rw [if_pos hp]
      exact ⟨_, _, r', rfl, l2, l3, l4, l5, l6, fun hs => (l7 hs).1⟩
    · rw [if_neg hp]
      obtain ⟨a1, a2, a3⟩ := l8 he
      have := a3 (fun h => hp h.symm)
      have hlt := l2.lt
      rw [wr_ok (by omega), Outcome.ok_bind]
      exact ⟨_, _, r', rfl, l2.set (by omega), l3, l4.trans (same_set (by omega)), l5, l6, fun hs => (l7 hs).1⟩

/-! ## Strings -/

/-- The string `s` stands at `x`, terminated, and its end is below `b`. -/
def StrIs (m : Bytes) (b : Nat) (x : Nat) (s : Bytes) : Prop := 0 ∉ s ∧ Seg m x (s ++ [0]) ∧ x + s.length < b

theorem seg_drop {m : Bytes} (x : Bytes) : ∀ {p : Nat}, Seg m p x → ∃ post, m.drop p = x ++ post := by
  induction x with
  | nil => intro p _; exact ⟨m.drop p, rfl⟩
  | cons c x ih =>
    intro p h
    obtain ⟨h1, h2⟩ := seg_cons.mp h
    obtain ⟨post, h3⟩ := ih h2
    obtain ⟨h4, h5⟩ := List.getElem?_eq_some_iff.mp h1
    refine ⟨post, ?_⟩
    rw [List.drop_eq_getElem_cons h4, h5, h3]; rfl

theorem StrIs.str {m : Bytes} {b x : Nat} {s : Bytes} (h : StrIs m b x s) : str m (some x) = s ∧ terminated m (some x) = true := by
  obtain ⟨h1, h2, _⟩ := h
  obtain ⟨post, h3⟩ := seg_drop _ h2
  unfold IniMem.str terminated
  simp only [h3, List.append_assoc, List.singleton_append]
  constructor
  · refine takeWhile_append_stops (fun c hc => ?_) (stops_cons (by simp))
    have : c ≠ 0 := fun h0 => h1 (h0 ▸ hc)
    simpa using this
  · simp

theorem StrIs.same {m m' : Bytes} {b x : Nat} {s : Bytes} (h : StrIs m b x s) (hs : Same m m' b) : StrIs m' b x s :=
  ⟨h.1, seg_same hs h.2.1 (by have := h.2.2; simp; omega), h.2.2⟩

theorem StrIs.mono {m : Bytes} {b c x : Nat} {s : Bytes} (h : StrIs m b x s) (hs : b ≤ c) : StrIs m c x s :=
  ⟨h.1, h.2.1, by have := h.2.2; omega⟩

/-- Some string stands there. -/
def HasStr (m : Bytes) (b : Nat) (p : Option Nat) : Prop := ∀ x, p = some x → ∃ s, StrIs m b x s

theorem HasStr.same {m m' : Bytes} {b : Nat} {p : Option Nat} (h : HasStr m b p) (hs : Same m m' b) :
    HasStr m' b p ∧ str m' p = str m p := by
  constructor
  · intro x hx; obtain ⟨s, h1⟩ := h x hx; exact ⟨s, h1.same hs⟩
  · cases p with
    | none => rfl
    | some x =>
      obtain ⟨s, h1⟩ := h x rfl
      rw [h1.str.1, (h1.same hs).str.1]

theorem HasStr.terminated {m : Bytes} {b : Nat} {p : Option Nat} (h : HasStr m b p) : terminated m p = true := by
  cases p with
  | none => rfl
  | some x => obtain ⟨s, h1⟩ := h x rfl; exact h1.str.2

theorem HasStr.mono {m : Bytes} {b c : Nat} {p : Option Nat} (h : HasStr m b p) (hs : b ≤ c) : HasStr m c p := by
  intro x hx; obtain ⟨s, h1⟩ := h x hx; exact ⟨s, h1.mono hs⟩

/-- From a text that is followed by a NUL somewhere. -/
theorem hasStr_of_nul {m : Bytes} {x z : Nat} (hz : m[z]? = some 0) (hx : x ≤ z) : ∃ s, StrIs m (z + 1) x s := by
  have key : ∀ (k x : Nat), x + k = z → ∃ s, StrIs m (z + 1) x s := by
    intro k
    induction k with
    | zero =>
      intro x hx
      have : x = z := by omega
      subst this
      exact ⟨[], by simp, by rw [List.nil_append, seg_cons]; exact ⟨hz, seg_nil _ _⟩, by simp⟩
    | succ k ih =>
      intro x hx
      have hlen := (List.getElem?_eq_some_iff.mp hz).1
      have hget := List.getElem?_eq_getElem (by omega : x < m.length)
      by_cases h0 : m[x] = 0
      · exact ⟨[], by simp, by rw [List.nil_append, seg_cons]; exact ⟨by rw [hget, h0], seg_nil _ _⟩, by simp; omega⟩
      · obtain ⟨s, h1, h2, h3⟩ := ih (x + 1) (by omega)
        refine ⟨m[x] :: s, ?_, ?_, ?_⟩
        · simp only [List.mem_cons, not_or]; exact ⟨fun h => h0 h.symm, h1⟩
        · rw [List.cons_append, seg_cons]; exact ⟨hget, h2⟩
        · simp only [List.length_cons]; omega
  exact key (z - x) x (by omega)

/-! ## Rounds of FindEntry -/

/-- What a pointer to the current section stands for: a name, or - after a header that is not closed - a text with a line break in
    it, which lies before everything that will still be written to. -/
def Cur (m : Bytes) (p : Nat) (r : Bytes) (b : Nat) (sect : Option Nat) : Option Bytes → Prop
  | some n => (∀ c ∈ n, isNL c = false) ∧ ((sect = none ∧ n = []) ∨ ∃ s, sect = some s ∧ StrIs m b s n)
  | none => ∃ s, sect = some s ∧ (r = [] ∨ ∃ name c, isNL c = true ∧ 0 ∉ name ∧ Seg m s (name ++ [c])
      ∧ s + name.length < p + (r.takeWhile isSp).length)

/-- Where the first byte that counts stands. -/
theorem round_again_comment {m : Bytes} {p : Nat} {r : Bytes} (h : At m p r) {c : UInt8} {z : Bytes} (hr : r.dropWhile isSp = c :: z)
    (hc : isComment c = true) (sect : Option Nat) : ∃ m' p' r', round m p sect = .ok (.again m' p' sect) ∧ At m' p' r'
      ∧ parse r' = parse r ∧ Same m m' (p + (r.takeWhile isSp).length) ∧ r'.length < r.length ∧ p + (r.takeWhile isSp).length ≤ p' := by
  obtain ⟨x, y, hxy, hx, hy, _, hstop, e1, e2, e3, e4⟩ := scan_split (cond := isSp) h
  rw [hr] at hy
  subst hy
  unfold round
  obtain ⟨g1, g2, g3⟩ := e4.cons
  rw [e1, Outcome.ok_bind, g1, Outcome.ok_bind, if_neg g2, if_pos hc]
  obtain ⟨m', p', r', l1, l2, l3, l4, l5, l6, l7⟩ := loadMultiLineText_at true e4
  rw [l1, Outcome.ok_bind]
  have h7 := l7 hc
  have hlen : r.length = x.length + (c :: z).length := by rw [← List.length_append, ← hxy]
  refine ⟨m', p', r', rfl, l2, ?_, by rw [← hx]; exact l4, by omega, by rw [← hx]; exact l6⟩
  rw [l3, ← hr, parse_dropSpace]

theorem trimRight_no {x : Bytes} {P : UInt8 → Prop} (h : ∀ c ∈ x, P c) : ∀ c ∈ trimRight x, P c := by
  obtain ⟨y, hy⟩ := trimRight_prefix x
  intro c hc
  exact h c (by rw [hy]; simp [hc])

/-- What a header leads to, from what stands behind the name. -/
def headerStep (name : Bytes) : Bytes → Step
  | 93 :: r3 => .header (trimRight name) (r3.dropWhile (fun c => !isNL c))
  | r2 => .badHeader r2

/-- What an entry leads to, from what stands behind the key. -/
def keyStep (key : Bytes) : Bytes → Step
  | 61 :: r2 =>
    if key = [] then .skip ((61 :: r2).dropWhile (fun c => !isNL c))
    else .entry (trimRight key) (trimRight ((r2.dropWhile (fun c => !isNL c && isSp c)).takeWhile (fun c => !isNL c)))
      (Ini.skipNewLine ((r2.dropWhile (fun c => !isNL c && isSp c)).dropWhile (fun c => !isNL c)))
  | r1 => .skip r1

theorem step_header {r z : Bytes} (hr : r.dropWhile isSp = 91 :: z) : step r =
    headerStep ((z.dropWhile isSp).takeWhile (fun c => c != 93 && !isNL c)) ((z.dropWhile isSp).dropWhile (fun c => c != 93 && !isNL c)) := by
  unfold step
  rw [hr]
  simp only [if_neg (show ¬ isComment 91 = true by decide), if_true]
  rfl

theorem step_key {r z : Bytes} {c : UInt8} (hr : r.dropWhile isSp = c :: z) (hc : isComment c = false) (h91 : c ≠ 91) : step r =
    keyStep ((c :: z).takeWhile (fun c => c != 61 && !isNL c)) ((c :: z).dropWhile (fun c => c != 61 && !isNL c)) := by
  unfold step
  rw [hr]
  simp only [hc, Bool.false_eq_true, if_false, if_neg h91]
  rfl

/-- A round at a `[`. -/
theorem round_section {m : Bytes} {p : Nat} {r : Bytes} (h : At m p r) {z : Bytes} (hr : r.dropWhile isSp = 91 :: z) (sect : Option Nat) :
    (∃ s name r2, step r = .badHeader r2 ∧ round m p sect = .ok (.again m (s + name.length) (some s)) ∧ At m (s + name.length) r2
      ∧ Seg m s name ∧ 0 ∉ name ∧ (∀ c, r2.head? = some c → isNL c = true) ∧ r2.length < r.length
      ∧ p + (r.takeWhile isSp).length ≤ s ∧ At m s (z.dropWhile isSp) ∧ s + name.length ≤ p + r.length)
    ∨ (∃ m' q s n r2, step r = .header n r2 ∧ round m p sect = .ok (.stop ⟨m', q, some s, true, none⟩) ∧ At m' q r2
      ∧ StrIs m' q s n ∧ (∀ c ∈ n, isNL c = false) ∧ Same m m' (p + (r.takeWhile isSp).length) ∧ r2.length < r.length
      ∧ p + (r.takeWhile isSp).length ≤ q ∧ At m s (z.dropWhile isSp) ∧ Same m m' s ∧ p + (r.takeWhile isSp).length ≤ s
      ∧ s ≤ p + r.length) := by
  obtain ⟨x, y, hxy, hx, hy, _, hstop, e1, e2, e3, e4⟩ := scan_split (cond := isSp) h
  rw [hr] at hy
  subst hy
  obtain ⟨g1, g2, g3⟩ := e4.cons
  obtain ⟨x2, y2, hxy2, hx2, hy2, _, _, a1, a2, a3, a4⟩ := scan_split (cond := isSp) g3
  obtain ⟨name, y3, hxy3, hx3, hy3, hall, hstop3, b1, b2, b3, b4⟩ := scan_split (cond := fun c => c != 93 && !isNL c) a4
  have hlen : r.length = x.length + (91 :: z).length := by rw [← List.length_append, ← hxy]
  have hlen2 : z.length = x2.length + (name.length + y3.length) := by
    rw [hxy2, List.length_append, hxy3, List.length_append]
  simp only [List.length_cons] at hlen
  have hround : round m p sect = (do
      let c ← rd m (p + x.length + 1 + x2.length + name.length)
      if c ≠ 93 then .ok (.again m (p + x.length + 1 + x2.length + name.length) (some (p + x.length + 1 + x2.length)))
      else do
        let t ← trimBack m (p + x.length + 1 + x2.length) (p + x.length + 1 + x2.length + name.length)
        let m ← wr m t 0
        let q ← scan (fun c => !isNL c) m (m.length + 1) (p + x.length + 1 + x2.length + name.length + 1)
        .ok (.stop ⟨m, q, some (p + x.length + 1 + x2.length), true, none⟩)) := by
    unfold round
    rw [e1, Outcome.ok_bind, g1, Outcome.ok_bind, if_neg g2, if_neg (by decide), if_pos rfl]
    unfold sectionRound
    rw [a1, Outcome.ok_bind, b1, Outcome.ok_bind]
  have hstep : step r = headerStep name y3 := by
    rw [step_header hr, ← hy2, ← hx3, ← hy3]
  rw [← hx]
  cases y3 with
  | nil =>
    left
    refine ⟨p + x.length + 1 + x2.length, name, [], hstep, ?_, b4, b2, b3, by simp, by simp; omega, by omega, hy2 ▸ a4, by omega⟩
    rw [hround, b4.nil, Outcome.ok_bind, if_pos (by decide)]
  | cons c w =>
    obtain ⟨c1, c2, c3⟩ := b4.cons
    rw [c1, Outcome.ok_bind] at hround
    simp only [List.length_cons] at hlen2
    by_cases hc : c = 93
    · subst hc
      right
      have hlt := b4.lt
      obtain ⟨m', t, t1, t2, t3, t4, t5, t6, t7⟩ := trim_write b2 (by omega)
      rw [if_neg (by simp), t1, Outcome.ok_bind, t2, Outcome.ok_bind] at hround
      have hat : At m' (p + x.length + 1 + x2.length + name.length + 1) w := by rw [t6]; exact c3.set (by omega)
      obtain ⟨x5, y5, hxy5, hx5, hy5, _, _, d1, d2, d3, d4⟩ := scan_split (cond := fun c => !isNL c) hat
      rw [d1, Outcome.ok_bind] at hround
      have hlen5 : w.length = x5.length + y5.length := by rw [hxy5, List.length_append]
      refine ⟨m', _, _, trimRight name, y5, ?_, hround, d4, ⟨fun hm => trimRight_no (P := fun c => c ≠ 0) (fun c hc => ?_) 0 hm rfl, t4, by omega⟩, ?_, t3.mono (by omega), by omega, by omega,
        hy2 ▸ a4, t3, by omega, by omega⟩
      · rw [hstep, hy5]; rfl
      · exact fun h0 => b3 (h0 ▸ hc)
      · refine trimRight_no fun c hc => ?_
        have := hall c hc
        simp only [Bool.and_eq_true, Bool.not_eq_true'] at this
        exact this.2
    · left
      refine ⟨p + x.length + 1 + x2.length, name, c :: w, ?_, ?_, b4, b2, b3, ?_, by simp; omega, by omega, hy2 ▸ a4, by omega⟩
      · rw [hstep]
        unfold headerStep
        split
        · rename_i heq; simp only [List.cons.injEq] at heq; exact absurd heq.1 hc
        · rfl
      · rw [hround, if_pos hc]
      · intro d hd
        simp only [List.head?_cons, Option.some.injEq] at hd
        subst hd
        have := hstop3 c rfl
        simp only [Bool.and_eq_false_iff, bne_eq_false_iff_eq, Bool.not_eq_false'] at this
        exact this.resolve_left hc

/-- A round at a key. -/
theorem round_key {m : Bytes} {p : Nat} {r : Bytes} (h : At m p r) {c0 : UInt8} {z : Bytes} (hr : r.dropWhile isSp = c0 :: z)
    (hc : isComment c0 = false) (h91 : c0 ≠ 91) (sect : Option Nat) :
    (∃ q r2, step r = .skip r2 ∧ round m p sect = .ok (.again m q sect) ∧ At m q r2 ∧ r2.length < r.length
      ∧ p + (r.takeWhile isSp).length ≤ q ∧ q ≤ p + r.length)
    ∨ (∃ m' q b kp vp k v r2, step r = .entry k v r2 ∧ round m p sect = .ok (.stop ⟨m', q, sect, true, some (kp, vp)⟩) ∧ At m' q r2
      ∧ StrIs m' b kp k ∧ StrIs m' b vp v ∧ (r2 = [] ∨ b ≤ q) ∧ Same m m' (p + (r.takeWhile isSp).length) ∧ r2.length < r.length
      ∧ p + (r.takeWhile isSp).length = kp ∧ p + (r.takeWhile isSp).length ≤ q) := by
  obtain ⟨x, y, hxy, hx, hy, _, hstop, e1, e2, e3, e4⟩ := scan_split (cond := isSp) h
  rw [hr] at hy
  subst hy
  obtain ⟨g1, g2, g3⟩ := e4.cons
  obtain ⟨key, y2, hxy2, hx2, hy2, _, hstop2, a1, a2, a3, a4⟩ := scan_split (cond := fun c => c != 61 && !isNL c) e4
  have hlen : r.length = x.length + (c0 :: z).length := by rw [← List.length_append, ← hxy]
  have hlen2 : (c0 :: z).length = key.length + y2.length := by rw [hxy2, List.length_append]
  have hround : round m p sect = keyRound m (p + x.length) sect := by
    unfold round
    rw [e1, Outcome.ok_bind, g1, Outcome.ok_bind, if_neg g2, if_neg (by simp [hc]), if_neg h91]
  have hstep : step r = keyStep key y2 := by
    rw [step_key hr hc h91, ← hx2, ← hy2]
  have hp1 : 1 ≤ (c0 :: z).length := by simp
  -- a line without `=` is passed
  have hkey : (∃ w, y2 = 61 :: w) ∨ (key ≠ [] ∧ ∀ w, y2 ≠ 61 :: w) := by
    by_cases h61 : ∃ w, y2 = 61 :: w
    · exact .inl h61
    · refine .inr ⟨fun hk => ?_, fun w hw => h61 ⟨w, hw⟩⟩
      rw [hk, List.nil_append] at hxy2
      have h1 := hstop2 c0 (by rw [← hxy2]; rfl)
      simp only [Bool.and_eq_false_iff, bne_eq_false_iff_eq, Bool.not_eq_false'] at h1
      rcases h1 with h1 | h1
      · exact h61 ⟨z, by rw [← hxy2, h1]⟩
      · have := hstop c0 rfl
        rw [isSp_of_isNL h1] at this; simp at this
  unfold keyRound at hround
  rw [a1, Outcome.ok_bind] at hround
  rw [← hx]
  rcases hkey with ⟨w, rfl⟩ | ⟨hk, hno⟩
  · obtain ⟨c1, c2, c3⟩ := a4.cons
    rw [c1, Outcome.ok_bind, if_neg (by simp)] at hround
    by_cases hk : key = []
    · subst hk
      left
      rw [if_pos (by simp)] at hround
      simp only [List.length_nil, Nat.add_zero] at hround a4
      obtain ⟨x5, y5, hxy5, hx5, hy5, _, _, d1, d2, d3, d4⟩ := scan_split (cond := fun c => !isNL c) a4
      rw [d1, Outcome.ok_bind] at hround
      have hlen5 : w.length + 1 = x5.length + y5.length := by rw [← List.length_append, ← hxy5]; simp
      have hpos : 0 < x5.length := by rw [hx5, List.takeWhile_cons_of_pos (by decide)]; simp
      simp only [List.length_nil, List.length_cons] at hlen2
      refine ⟨_, y5, ?_, hround, d4, by simp only [List.length_cons] at hlen; omega, by omega, by simp only [List.length_cons] at hlen; omega⟩
      rw [hstep]
      simp only [keyStep, if_true]
      rw [hy5]
    · right
      have hkl : 0 < key.length := List.length_pos_iff.mpr hk
      rw [if_neg (by omega)] at hround
      have hlt := a4.lt
      obtain ⟨m1, t, t1, t2, t3, t4, t5, t6, t7⟩ := trim_write a2 (by omega)
      rw [t1, Outcome.ok_bind, t2, Outcome.ok_bind] at hround
      have hat : At m1 (p + x.length + key.length + 1) w := by rw [t6]; exact c3.set (by omega)
      obtain ⟨x3, y3, hxy3, hx3, hy3, _, _, b1, b2, b3, b4⟩ := scan_split (cond := fun c => !isNL c && isSp c) hat
      rw [b1, Outcome.ok_bind] at hround
      obtain ⟨v, y4, hxy4, hx4, hy4, hv4, hstop4, d1, d2, d3, d4⟩ := scan_split (cond := fun c => !isNL c) b4
      rw [d1, Outcome.ok_bind] at hround
      have hlt4 := d4.lt
      obtain ⟨m2, u, u1, u2, u3, u4, u5, u6, u7⟩ := trim_write d2 (by omega)
      unfold valueRound at hround
      have hs : step r = .entry (trimRight key) (trimRight v) (Ini.skipNewLine y4) := by
        rw [hstep]
        simp only [keyStep, if_neg hk]
        rw [← hy3, ← hx4, ← hy4]
      have hk0 : 0 ∉ trimRight key := fun h0 => trimRight_no (P := fun c => c ≠ 0) (fun c hc h0 => a3 (h0 ▸ hc)) 0 h0 rfl
      have hv0 : 0 ∉ trimRight v := fun h0 => trimRight_no (P := fun c => c ≠ 0) (fun c hc h0 => d3 (h0 ▸ hc)) 0 h0 rfl
      have hkseg : Seg m2 (p + x.length) (trimRight key ++ [0]) :=
        seg_same u3 t4 (by simp only [List.length_append, List.length_singleton]; omega)
      have hlenw : w.length = x3.length + (v.length + y4.length) := by
        rw [hxy3, List.length_append, hxy4, List.length_append]
      simp only [List.length_cons] at hlen2 hlen
      have hm2 : m2.length = m.length := by rw [u3.1, t3.1]
      have hm1 : m1.length = m.length := t3.1
      cases y4 with
      | nil =>
        rw [d4.nil, Outcome.ok_bind, if_neg (by simp)] at hround
        simp only [u1, Outcome.ok_bind, u2] at hround
        refine ⟨m2, _, m.length, _, _, _, _, [], hs, hround, ?_, ⟨hk0, hkseg, by omega⟩, ⟨hv0, u4, by omega⟩, .inl rfl,
          (t3.mono (by omega)).trans (u3.mono (by omega)), by simp only [List.length_nil]; omega, rfl, by omega⟩
        refine ⟨by simp, ?_⟩
        rw [List.nil_append, seg_cons]
        refine ⟨?_, seg_nil _ _⟩
        by_cases hue : u = p + x.length + key.length + 1 + x3.length + v.length
        · rw [u6, hue, List.getElem?_set_self (by omega)]
        · rw [u6, List.getElem?_set_ne hue]
          exact (seg_cons.mp d4.2).1
      | cons c y4 =>
        obtain ⟨f1, f2, f3⟩ := d4.cons
        obtain ⟨q, q1, q2, q3, _⟩ := skipNewLine_at d4
        rw [f1, Outcome.ok_bind, if_pos f2, q1, Outcome.ok_bind] at hround
        simp only [u1, Outcome.ok_bind, u2] at hround
        have hsh := skipNewLine_shorter c y4
        simp only [List.length_cons] at hlenw
        exact ⟨m2, q, q, _, _, _, _, _, hs, hround, by rw [u6]; exact q2.set (by omega), ⟨hk0, hkseg, by omega⟩, ⟨hv0, u4, by omega⟩,
          .inr (Nat.le_refl _), (t3.mono (by omega)).trans (u3.mono (by omega)), by omega, rfl, by omega⟩
  · left
    have hkl : 0 < key.length := List.length_pos_iff.mpr hk
    refine ⟨p + x.length + key.length, y2, ?_, ?_, a4, by omega, by omega, by omega⟩
    · rw [hstep]
      unfold keyStep
      split
      · exact absurd rfl (hno _)
      · rfl
    · rw [hround]
      cases y2 with
      | nil => rw [a4.nil, Outcome.ok_bind, if_pos (by decide)]
      | cons c w =>
        rw [a4.cons.1, Outcome.ok_bind, if_pos]
        intro h61; exact hno w (by rw [h61])

/-! ## FindEntry -/

/-- What an entry changes in the table. -/
def put (cur : Option Bytes) (k v : Bytes) (d : Data) : Data :=
  match cur with
  | some s => addKey s k v d
  | none => d

theorem build_entry (cur : Option Bytes) (d : Data) (k v : Bytes) (is : List Item) :
    build cur d (.entry k v :: is) = build cur (put cur k v d) is := by cases cur <;> rfl

theorem build_header (cur : Option Bytes) (d : Data) (n : Bytes) (is : List Item) :
    build cur d (.header n :: is) = build (some n) (addSection n d) is := by cases cur <;> rfl

theorem build_bad (cur : Option Bytes) (d : Data) (is : List Item) :
    build cur d (.badHeader :: is) = build none d is := by cases cur <;> rfl

theorem Cur.again {m m' : Bytes} {p p' : Nat} {r r' : Bytes} {b : Nat} {sect : Option Nat} {cur : Option Bytes}
    (h : Cur m p r b sect cur) (hr : r ≠ []) (hb : b ≤ p) (hs : Same m m' (p + (r.takeWhile isSp).length))
    (hp : p + (r.takeWhile isSp).length ≤ p') : Cur m' p' r' b sect cur := by
  cases cur with
  | some n =>
    refine ⟨h.1, ?_⟩
    rcases h.2 with h | ⟨s, h1, h2⟩
    · exact .inl h
    · exact .inr ⟨s, h1, h2.same (hs.mono (by omega))⟩
  | none =>
    obtain ⟨s, h1, h2⟩ := h
    refine ⟨s, h1, .inr ?_⟩
    rcases h2 with h2 | ⟨name, c, h2, h3, h4, h5⟩
    · exact absurd h2 hr
    · exact ⟨name, c, h2, h3, seg_same hs h4 (by simp only [List.length_append, List.length_singleton]; omega), by omega⟩

theorem Cur.mono {m : Bytes} {p : Nat} {r : Bytes} {b c : Nat} {sect : Option Nat} {cur : Option Bytes}
    (h : Cur m p r b sect cur) (hb : b ≤ c) : Cur m p r c sect cur := by
  cases cur with
  | some n =>
    refine ⟨h.1, ?_⟩
    rcases h.2 with h | ⟨s, h1, h2⟩
    · exact .inl h
    · exact .inr ⟨s, h1, h2.mono hb⟩
  | none => exact h

/-- A string that begins with a text and a line break contains the line break. -/
theorem str_with_break {m : Bytes} {b s : Nat} {x name : Bytes} {c : UInt8} (h : StrIs m b s x) (hc : isNL c = true) (h0 : 0 ∉ name)
    (hs : Seg m s (name ++ [c])) : c ∈ x := by
  obtain ⟨h1, h2, h3⟩ := h
  by_cases hl : name.length < x.length
  · have e1 := hs name.length c (by simp)
    have e2 := h2 name.length x[name.length] (by rw [List.getElem?_append_left hl, List.getElem?_eq_getElem hl])
    rw [e1] at e2
    have := Option.some.inj e2
    rw [this]; exact List.getElem_mem _
  · exfalso
    have e2 := h2 x.length 0 (by simp)
    by_cases hn : x.length < name.length
    · have e1 := hs x.length name[x.length] (by rw [List.getElem?_append_left hn, List.getElem?_eq_getElem hn])
      rw [e2] at e1
      exact h0 (by rw [Option.some.inj e1]; exact List.getElem_mem _)
    · have e1 := hs x.length c (by rw [show x.length = name.length by omega]; simp)
      rw [e2] at e1
      rw [← Option.some.inj e1] at hc
      exact absurd hc (by decide)

/-- The section is a string that a name without line breaks addresses only if it is that name. -/
def SectIs (m : Bytes) (b : Nat) (sect : Option Nat) : Option Bytes → Prop
  | some n => HasStr m b sect ∧ str m sect = n ∧ ∀ c ∈ n, isNL c = false
  | none => HasStr m b sect ∧ ∃ c ∈ str m sect, isNL c = true

theorem findEntry_at : ∀ (fuel : Nat) (m : Bytes) (p : Nat) (r : Bytes) (b : Nat) (sect : Option Nat) (cur : Option Bytes),
    At m p r → Cur m p r b sect cur → (r = [] ∨ b ≤ p) → r.length < fuel →
    ∃ f, findEntry fuel m p sect = .ok f ∧ Same m f.mem b
      ∧ ((f.found = false ∧ ∀ d, build cur d (parse r) = d)
        ∨ (f.found = true ∧ ∃ b2 r2 cur2, b ≤ b2 ∧ At f.mem f.data r2 ∧ (r2 = [] ∨ b2 ≤ f.data) ∧ r2.length < r.length
          ∧ Cur f.mem f.data r2 b2 f.sect cur2 ∧ SectIs f.mem b2 f.sect cur2
          ∧ ((f.keyVal = none ∧ ∃ n, cur2 = some n ∧ ∀ d, build cur d (parse r) = build cur2 (addSection n d) (parse r2))
            ∨ ∃ kp vp k v, f.keyVal = some (kp, vp) ∧ StrIs f.mem b2 kp k ∧ StrIs f.mem b2 vp v
              ∧ ∀ d, build cur d (parse r) = build cur2 (put cur2 k v d) (parse r2)))) := by
  intro fuel
  induction fuel with
  | zero => intro m p r b sect cur _ _ _ h; omega
  | succ fuel ih =>
    intro m p r b sect cur h hcur hb hf
    rw [findEntry]
    cases hr : r.dropWhile isSp with
    | nil =>
      obtain ⟨x, y, hxy, hx, hy, _, hstop, e1, e2, e3, e4⟩ := scan_split (cond := isSp) h
      rw [hr] at hy
      subst hy
      have hround : round m p sect = .ok (.stop ⟨m, p + x.length, sect, false, none⟩) := by
        unfold round
        rw [e1, Outcome.ok_bind, e4.nil, Outcome.ok_bind, if_pos rfl]
      rw [hround, Outcome.ok_bind]
      refine ⟨_, rfl, Same.refl m b, .inl ⟨rfl, fun d => ?_⟩⟩
      rw [← parse_dropSpace, hr, parse_nil]
      cases cur <;> rfl
    | cons c z =>
      have hne : r ≠ [] := by rintro rfl; simp at hr
      have hbp : b ≤ p := hb.resolve_left hne
      cases hc : isComment c with
      | true =>
        obtain ⟨m', p', r', a1, a2, a3, a4, a5, a6⟩ := round_again_comment h hr hc sect
        rw [a1, Outcome.ok_bind]
        obtain ⟨f, f1, f2, f3⟩ := ih m' p' r' b sect cur a2 (hcur.again hne hbp a4 a6) (.inr (by omega)) (by omega)
        refine ⟨f, f1, (a4.mono (by omega)).trans f2, ?_⟩
        rw [a3] at f3
        rcases f3 with f3 | ⟨g0, b2, r2, cur2, g1, g2, g3, g4, g5⟩
        · exact .inl f3
        · exact .inr ⟨g0, b2, r2, cur2, g1, g2, g3, by omega, g5⟩
      | false =>
        by_cases h91 : c = 91
        · subst h91
          rcases round_section h hr sect with ⟨s, name, r2, a1, a2, a3, a4, a5, a6, a7, a8, _⟩
              | ⟨m', q, s, n, r2, a1, a2, a3, a4, a5, a6, a7, a8, _⟩
          · rw [a2, Outcome.ok_bind]
            have hcur2 : Cur m (s + name.length) r2 b (some s) none := by
              refine ⟨s, rfl, ?_⟩
              cases r2 with
              | nil => exact .inl rfl
              | cons d w =>
                have hd := a6 d rfl
                refine .inr ⟨name, d, hd, a5, ?_, ?_⟩
                · rw [seg_append]
                  refine ⟨a4, ?_⟩
                  have := (seg_cons.mp a3.2).1
                  rw [seg_cons]; exact ⟨this, seg_nil _ _⟩
                · rw [List.takeWhile_cons_of_pos (isSp_of_isNL hd)]; simp
            obtain ⟨f, f1, f2, f3⟩ := ih m (s + name.length) r2 b (some s) none a3 hcur2 (.inr (by omega)) (by omega)
            refine ⟨f, f1, f2, ?_⟩
            have hparse : ∀ d, build cur d (parse r) = build none d (parse r2) := by
              intro d; rw [parse_eq, a1]; exact build_bad cur d _
            rcases f3 with ⟨f3, f4⟩ | ⟨g0, b2, r3, cur2, g1, g2, g3, g4, g5⟩
            · exact .inl ⟨f3, fun d => by rw [hparse, f4]⟩
            · refine .inr ⟨g0, b2, r3, cur2, g1, g2, g3, by omega, ?_⟩
              simp only [hparse]; exact g5
          · rw [a2, Outcome.ok_bind]
            refine ⟨_, rfl, a6.mono (by omega), .inr ⟨rfl, q, r2, some n, by omega, a3, .inr (Nat.le_refl _), a7,
              ⟨a5, .inr ⟨s, rfl, a4⟩⟩, ⟨fun x hx => ?_, a4.str.1, a5⟩, .inl ⟨rfl, n, rfl, fun d => ?_⟩⟩⟩
            · cases hx; exact ⟨n, a4⟩
            · rw [parse_eq, a1]; exact build_header cur d n _
        · rcases round_key h hr hc h91 sect with ⟨q, r2, a1, a2, a3, a4, a5, _⟩
              | ⟨m', q, b', kp, vp, k, v, r2, a1, a2, a3, a4, a5, a6, a7, a8, a9, a10⟩
          · rw [a2, Outcome.ok_bind]
            obtain ⟨f, f1, f2, f3⟩ := ih m q r2 b sect cur a3 (hcur.again hne hbp (Same.refl _ _) a5) (.inr (by omega)) (by omega)
            refine ⟨f, f1, f2, ?_⟩
            have hparse : parse r = parse r2 := by rw [parse_eq, a1]
            rw [hparse]
            rcases f3 with f3 | ⟨g0, b2, r3, cur2, g1, g2, g3, g4, g5⟩
            · exact .inl f3
            · exact .inr ⟨g0, b2, r3, cur2, g1, g2, g3, by omega, g5⟩
          · rw [a2, Outcome.ok_bind]
            have hcur2 : Cur m' q r2 b sect cur := hcur.again hne hbp a7 a10
            have hbb : b' ≤ max b' b := Nat.le_max_left _ _
            refine ⟨_, rfl, a7.mono (by omega), .inr ⟨rfl, max b' b, r2, cur, Nat.le_max_right _ _, a3, ?_, a8,
              hcur2.mono (Nat.le_max_right _ _), ?_, .inr ⟨kp, vp, k, v, rfl, a4.mono hbb, a5.mono hbb, fun d => ?_⟩⟩⟩
            · rcases a6 with a6 | a6
              · exact .inl a6
              · exact .inr (by show max b' b ≤ q; omega)
            · cases cur with
              | some n =>
                refine ⟨?_, ?_, hcur2.1⟩
                · rcases hcur2.2 with ⟨g1, _⟩ | ⟨s, g1, g2⟩
                  · intro x hx; rw [g1] at hx; cases hx
                  · intro x hx; rw [g1] at hx; cases hx; exact ⟨n, g2.mono (Nat.le_max_right _ _)⟩
                · rcases hcur2.2 with ⟨g1, g2⟩ | ⟨s, g1, g2⟩
                  · show str m' sect = n
                    rw [g1, g2]; rfl
                  · show str m' sect = n
                    rw [g1]; exact g2.str.1
              | none =>
                obtain ⟨s, g1, g2⟩ := hcur
                rcases g2 with g2 | ⟨name, d, g2, g3, g4, g5⟩
                · exact absurd g2 hne
                · have hz : m'[kp + k.length]? = some 0 := a4.2.1 k.length 0 (by simp)
                  obtain ⟨x, hx⟩ := hasStr_of_nul hz (by omega : s ≤ kp + k.length)
                  have hx' : StrIs m' (max b' b) s x := hx.mono (by have := a4.2.2; omega)
                  subst g1
                  refine ⟨fun y hy => ?_, d, ?_, g2⟩
                  · cases hy; exact ⟨x, hx'⟩
                  · show d ∈ str m' (some s)
                    rw [hx'.str.1]
                    exact str_with_break hx' g2 g3 (seg_same a7 g4 (by simp only [List.length_append, List.length_singleton]; omega))
            · rw [parse_eq, a1]; exact build_entry cur d k v _

/-! ## The table -/

/-- The table with the strings the pointers stand for. -/
def absT (m : Bytes) (t : Table) : Data := t.map fun e => (str m e.1, e.2.map fun kv => (str m (some kv.1), str m (some kv.2)))

/-- The sections that a name without line breaks can address. -/
def clean (d : Data) : Data := d.filter fun e => e.1.all fun c => !isNL c

/-- All pointers of the table point to strings below `b`. -/
def AllStr (m : Bytes) (b : Nat) (t : Table) : Prop :=
  ∀ e ∈ t, HasStr m b e.1 ∧ ∀ kv ∈ e.2, (∃ s, StrIs m b kv.1 s) ∧ ∃ s, StrIs m b kv.2 s

theorem AllStr.same {m m' : Bytes} {b : Nat} {t : Table} (h : AllStr m b t) (hs : Same m m' b) : AllStr m' b t ∧ absT m' t = absT m t := by
  constructor
  · intro e he
    obtain ⟨h1, h2⟩ := h e he
    refine ⟨(h1.same hs).1, fun kv hkv => ?_⟩
    obtain ⟨⟨s, h3⟩, u, h4⟩ := h2 kv hkv
    exact ⟨⟨s, h3.same hs⟩, u, h4.same hs⟩
  · unfold absT
    refine List.map_congr_left fun e he => ?_
    obtain ⟨h1, h2⟩ := h e he
    rw [(h1.same hs).2]
    congr 1
    refine List.map_congr_left fun kv hkv => ?_
    obtain ⟨⟨s, h3⟩, u, h4⟩ := h2 kv hkv
    rw [h3.str.1, h4.str.1, (h3.same hs).str.1, (h4.same hs).str.1]

theorem AllStr.mono {m : Bytes} {b c : Nat} {t : Table} (h : AllStr m b t) (hc : b ≤ c) : AllStr m c t := by
  intro e he
  obtain ⟨h1, h2⟩ := h e he
  refine ⟨h1.mono hc, fun kv hkv => ?_⟩
  obtain ⟨⟨s, h3⟩, u, h4⟩ := h2 kv hkv
  exact ⟨⟨s, h3.mono hc⟩, u, h4.mono hc⟩

theorem AllStr.comparable {m : Bytes} {b : Nat} {t : Table} (h : AllStr m b t) : comparable m t = true := by
  unfold IniMem.comparable
  rw [List.all_eq_true]
  intro e he
  obtain ⟨h1, h2⟩ := h e he
  rw [Bool.and_eq_true, List.all_eq_true]
  refine ⟨h1.terminated, fun kv hkv => ?_⟩
  obtain ⟨⟨s, h3⟩, _⟩ := h2 kv hkv
  exact h3.str.2

/-- The table after a section was looked for. -/
def withSection (m : Bytes) (s : Option Nat) (t : Table) : Table :=
  if t.any fun e => sameName (str m e.1) (str m s) then t else t ++ [(s, [])]

theorem absT_withSection (m : Bytes) (s : Option Nat) (t : Table) : absT m (withSection m s t) = addSection (str m s) (absT m t) := by
  unfold withSection addSection
  have : (absT m t).any (fun p => sameName p.1 (str m s)) = t.any fun e => sameName (str m e.1) (str m s) := by
    unfold absT; rw [List.any_map]; rfl
  rw [this]
  split
  · rfl
  · unfold absT; simp

theorem abs_setKey (m : Bytes) (k v : Nat) (kv : KeyPtrs) :
    (setKey m k v kv).map (fun e => (str m (some e.1), str m (some e.2))) =
      Ini.setKey (str m (some k)) (str m (some v)) (kv.map fun e => (str m (some e.1), str m (some e.2))) := by
  unfold setKey Ini.setKey
  have : (kv.map fun e => (str m (some e.1), str m (some e.2))).any (fun p => sameName p.1 (str m (some k))) =
      kv.any fun e => sameName (str m (some e.1)) (str m (some k)) := by rw [List.any_map]; rfl
  rw [this]
  split
  · rw [List.map_map, List.map_map]
    refine List.map_congr_left fun e _ => ?_
    simp only [Function.comp]
    split <;> rfl
  · simp

theorem allStr_withSection {m : Bytes} {b : Nat} {s : Option Nat} {t : Table} (h : AllStr m b t) (hs : HasStr m b s) :
    AllStr m b (withSection m s t) := by
  unfold withSection
  split
  · exact h
  · intro e he
    rcases List.mem_append.mp he with he | he
    · exact h e he
    · simp only [List.mem_singleton] at he; subst he; exact ⟨hs, by simp⟩

theorem addEntry_section {m : Bytes} {b : Nat} {s : Option Nat} {t : Table} (h : AllStr m b t) (hs : HasStr m b s) :
    ∃ t', addEntry m s none t = .ok t' ∧ AllStr m b t' ∧ absT m t' = addSection (str m s) (absT m t) := by
  refine ⟨withSection m s t, ?_, allStr_withSection h hs, absT_withSection m s t⟩
  unfold addEntry
  rw [if_pos (by rw [h.comparable, hs.terminated]; rfl)]
  rfl

theorem addEntry_key {m : Bytes} {b : Nat} {s : Option Nat} {t : Table} {k v : Nat} (h : AllStr m b t) (hs : HasStr m b s)
    (hk : ∃ x, StrIs m b k x) (hv : ∃ x, StrIs m b v x) :
    ∃ t', addEntry m s (some (k, v)) t = .ok t' ∧ AllStr m b t'
      ∧ absT m t' = addKey (str m s) (str m (some k)) (str m (some v)) (absT m t) := by
  obtain ⟨x, hx⟩ := hk
  refine ⟨(withSection m s t).map fun e => if sameName (str m e.1) (str m s) then (e.1, setKey m k v e.2) else e, ?_, ?_, ?_⟩
  · unfold addEntry
    rw [if_pos (by rw [h.comparable, hs.terminated]; simp [hx.str.2])]
    rfl
  · intro e he
    obtain ⟨e0, he0, rfl⟩ := List.mem_map.mp he
    obtain ⟨h1, h2⟩ := allStr_withSection h hs e0 he0
    split
    · refine ⟨h1, fun kv hkv => ?_⟩
      unfold setKey at hkv
      split at hkv
      · obtain ⟨kv0, hkv0, rfl⟩ := List.mem_map.mp hkv
        split
        · exact ⟨(h2 kv0 hkv0).1, hv⟩
        · exact h2 kv0 hkv0
      · rcases List.mem_append.mp hkv with hkv | hkv
        · exact h2 kv hkv
        · simp only [List.mem_singleton] at hkv; subst hkv; exact ⟨⟨x, hx⟩, hv⟩
    · exact ⟨h1, h2⟩
  · unfold addKey
    rw [← absT_withSection]
    unfold absT
    rw [List.map_map, List.map_map]
    refine List.map_congr_left fun e _ => ?_
    simp only [Function.comp]
    split
    · simp only [abs_setKey]
    · rfl

theorem isNL_locase (c : UInt8) : isNL (locase c) = isNL c := by
  revert c; apply forall_uint8; decide +kernel

theorem sameName_break {a n : Bytes} (h : sameName a n = true) : (a.all fun c => !isNL c) = n.all fun c => !isNL c := by
  have h : a.map locase = n.map locase := by simpa [sameName] using h
  have key : ∀ x : Bytes, (x.all fun c => !isNL c) = (x.map locase).all fun c => !isNL c := by
    intro x; rw [List.all_map]
    congr 1; funext c; simp only [Function.comp, isNL_locase]
  rw [key, h, ← key]

theorem clean_addSection {n : Bytes} (hn : (n.all fun c => !isNL c) = true) (d : Data) : clean (addSection n d) = addSection n (clean d) := by
  unfold addSection
  have : (clean d).any (fun p => sameName p.1 n) = d.any fun p => sameName p.1 n := by
    unfold clean
    rw [List.any_filter]
    congr 1; funext e
    cases h : sameName e.1 n with
    | false => simp
    | true => rw [sameName_break h, hn]; rfl
  rw [this]
  split
  · rfl
  · unfold clean; rw [List.filter_append]; simp only [List.filter_cons, hn, if_true, List.filter_nil]

theorem clean_addSection_break {n : Bytes} (hn : (n.all fun c => !isNL c) = false) (d : Data) : clean (addSection n d) = clean d := by
  unfold addSection
  split
  · rfl
  · unfold clean; rw [List.filter_append]; simp [List.filter_cons, hn]

theorem clean_map (n : Bytes) (f : KeyVal → KeyVal) (d : Data) :
    clean (d.map fun p => if sameName p.1 n then (p.1, f p.2) else p) = (clean d).map fun p => if sameName p.1 n then (p.1, f p.2) else p := by
  unfold clean
  rw [List.filter_map]
  congr 2
  funext e
  simp only [Function.comp]
  split <;> rfl

theorem clean_addKey {n : Bytes} (hn : (n.all fun c => !isNL c) = true) (k v : Bytes) (d : Data) :
    clean (addKey n k v d) = addKey n k v (clean d) := by
  unfold addKey
  rw [clean_map n (Ini.setKey k v), clean_addSection hn]

theorem clean_addKey_break {n : Bytes} (hn : (n.all fun c => !isNL c) = false) (k v : Bytes) (d : Data) :
    clean (addKey n k v d) = clean d := by
  unfold addKey
  rw [clean_map n (Ini.setKey k v), clean_addSection_break hn]
  have : ∀ p ∈ clean d, (if sameName p.1 n then (p.1, Ini.setKey k v p.2) else p) = p := by
    intro p hp
    have h1 := (List.mem_filter.mp hp).2
    rw [if_neg]
    intro h
    rw [sameName_break h, hn] at h1
    cases h1
  rw [List.map_congr_left this, List.map_id']

/-! ## LoadData -/

theorem loadLoop_at : ∀ (fuel : Nat) (m : Bytes) (p : Nat) (r : Bytes) (b : Nat) (sect : Option Nat) (cur : Option Bytes) (t : Table),
    At m p r → Cur m p r b sect cur → (r = [] ∨ b ≤ p) → AllStr m b t → r.length < fuel →
    ∃ m' t' b', loadLoop fuel m p sect t = .ok (m', t') ∧ m'.length = m.length ∧ AllStr m' b' t' ∧ clean (absT m' t') = build cur (clean (absT m t)) (parse r) := by
  intro fuel
  induction fuel with
  | zero => intro m p r b sect cur t _ _ _ _ h; omega
  | succ fuel ih =>
    intro m p r b sect cur t h hcur hb ht hf
    rw [loadLoop]
    have hlt := h.lt
    obtain ⟨f, f1, f2, f3⟩ := findEntry_at (m.length + 1) m p r b sect cur h hcur hb (by omega)
    rw [f1, Outcome.ok_bind]
    obtain ⟨t1, t2⟩ := ht.same f2
    rcases f3 with ⟨f3, f4⟩ | ⟨f3, b2, r2, cur2, g1, g2, g3, g4, g5, g6, g7⟩
    · rw [f3, if_neg (by simp)]
      exact ⟨_, t, b, rfl, f2.1, t1, by rw [t2, f4]⟩
    · rw [f3, if_pos rfl]
      have t1 := t1.mono g1
      have hhas : HasStr f.mem b2 f.sect := by cases cur2 <;> exact g6.1
      rcases g7 with ⟨k1, n, k2, k3⟩ | ⟨kp, vp, k, v, k1, k2, k3, k4⟩
      · subst k2
        obtain ⟨g6, g8, g9⟩ := g6
        obtain ⟨t', a1, a2, a3⟩ := addEntry_section t1 hhas
        rw [k1, a1, Outcome.ok_bind]
        obtain ⟨m', t'', b', i1, i0, i2, i3⟩ := ih f.mem f.data r2 b2 f.sect (some n) t' g2 g5 g3 a2 (by omega)
        refine ⟨m', t'', b', i1, i0.trans f2.1, i2, ?_⟩
        have hn : (n.all fun c => !isNL c) = true := by rw [List.all_eq_true]; intro c hc; rw [g9 c hc]; rfl
        rw [i3, a3, g8, clean_addSection hn, t2, k3]
      · obtain ⟨t', a1, a2, a3⟩ := addEntry_key t1 hhas ⟨k, k2⟩ ⟨v, k3⟩
        rw [k1, a1, Outcome.ok_bind]
        obtain ⟨m', t'', b', i1, i0, i2, i3⟩ := ih f.mem f.data r2 b2 f.sect cur2 t' g2 g5 g3 a2 (by omega)
        refine ⟨m', t'', b', i1, i0.trans f2.1, i2, ?_⟩
        rw [i3, a3, k2.str.1, k3.str.1, k4, ← t2]
        cases cur2 with
        | some n =>
          obtain ⟨g6, g8, g9⟩ := g6
          have hn : (n.all fun c => !isNL c) = true := by rw [List.all_eq_true]; intro c hc; rw [g9 c hc]; rfl
          rw [g8, clean_addKey hn]; rfl
        | none =>
          obtain ⟨g6, c, g8, g9⟩ := g6
          have hn : ((str f.mem f.sect).all fun c => !isNL c) = false := by
            rw [List.all_eq_false]; exact ⟨c, g8, by simp [g9]⟩
          rw [clean_addKey_break hn]; rfl

theorem cut_at (s : Bytes) : At (s ++ [0]) 0 (cut s) := by
  have hsplit : s = cut s ++ s.dropWhile (· ≠ 0) := List.takeWhile_append_dropWhile.symm
  refine ⟨fun h => ?_, ?_⟩
  · have := mem_takeWhile_holds (cond := (· ≠ 0)) s 0 h
    simp at this
  · have hpre : ∃ post, s ++ [0] = (cut s ++ [0]) ++ post := by
      cases hd : s.dropWhile (· ≠ 0) with
      | nil =>
        rw [hd, List.append_nil] at hsplit
        exact ⟨[], by rw [← hsplit]; simp⟩
      | cons c w =>
        have := List.head?_dropWhile_not (· ≠ 0) s
        rw [hd] at this
        have hc : c = 0 := by simpa using this
        subst hc
        refine ⟨w ++ [0], ?_⟩
        rw [hd] at hsplit
        conv => lhs; rw [hsplit]
        simp
    obtain ⟨post, hpre⟩ := hpre
    rw [hpre]
    intro i c hc
    rw [Nat.zero_add, List.getElem?_append_left (List.getElem?_eq_some_iff.mp hc).1]; exact hc

theorem loadData_ok (s : Bytes) : ∃ m t b, loadData s = .ok (m, t) ∧ m.length = (if s = [] then 0 else s.length + 1) ∧ AllStr m b t
    ∧ clean (absT m t) = load s := by
  unfold loadData
  by_cases h0 : s.length = 0
  · rw [if_pos h0]
    have : s = [] := List.length_eq_zero_iff.mp h0
    subst this
    exact ⟨[], [], 0, rfl, rfl, by intro e he; simp at he, rfl⟩
  · rw [if_neg h0]
    obtain ⟨m, p, r, a1, a2, a3, a4, a5, a6, _⟩ := loadMultiLineText_at false (cut_at s)
    rw [a1, Outcome.ok_bind]
    have hcut : (cut s).length ≤ s.length := length_takeWhile_le _ _
    obtain ⟨m', t', b', i1, i0, i2, i3⟩ := loadLoop_at (s.length + 2) m p r 0 none (some []) [] a2
      ⟨by simp, .inl ⟨rfl, rfl⟩⟩ (.inr (by omega)) (by intro e he; simp at he) (by omega)
    refine ⟨m', t', b', i1, ?_, i2, ?_⟩
    · rw [i0, a4.1, if_neg (fun h => h0 (by rw [h]; rfl))]; simp
    rw [i3, a3, ← items_eq_parse]; rfl

/-! ## C65 -/

/-- **C65**: loading a text ends for every text, of any size and with any bytes, without a read or write outside the copy of the text,
    and all names and values it keeps pointers to are terminated inside the copy. -/
theorem C65_load_safe (s : Bytes) : ∃ m t, loadData s = .ok (m, t) ∧ m.length = (if s = [] then 0 else s.length + 1)
    ∧ ∀ e ∈ t, terminated m e.1 = true ∧ ∀ kv ∈ e.2, terminated m (some kv.1) = true ∧ terminated m (some kv.2) = true := by
  obtain ⟨m, t, b, h1, h0, h2, _⟩ := loadData_ok s
  refine ⟨m, t, h1, h0, fun e he => ?_⟩
  obtain ⟨h3, h4⟩ := h2 e he
  refine ⟨h3.terminated, fun kv hkv => ?_⟩
  obtain ⟨⟨x, h5⟩, y, h6⟩ := h4 kv hkv
  exact ⟨h5.str.2, h6.str.2⟩

theorem find_clean {n : Bytes} (hn : ∀ c ∈ n, c ≠ 10 ∧ c ≠ 13) (d : Data) : findSection n (clean d) = findSection n d := by
  have hn : (n.all fun c => !isNL c) = true := by
    rw [List.all_eq_true]; intro c hc; simp [isNL, hn c hc]
  unfold findSection clean
  congr 1
  rw [List.find?_filter]
  congr 1; funext e
  cases h : sameName e.1 n with
  | false => simp
  | true => rw [sameName_break h, hn]; rfl

theorem find_abs {m : Bytes} {b : Nat} {t : Table} (h : AllStr m b t) (n : Bytes) :
    ∃ o, find m t n = .ok o ∧ o.map (fun kv => kv.map fun e => (str m (some e.1), str m (some e.2))) = findSection n (absT m t)
      ∧ ∀ kv, o = some kv → ∀ e ∈ kv, (∃ x, StrIs m b e.1 x) ∧ ∃ x, StrIs m b e.2 x := by
  unfold find
  rw [if_pos h.comparable]
  refine ⟨_, rfl, ?_, fun kv hkv e he => ?_⟩
  · unfold findSection absT
    rw [List.find?_map, Option.map_map, Option.map_map]
    rfl
  · rw [Option.map_eq_some_iff] at hkv
    obtain ⟨e0, h1, rfl⟩ := hkv
    exact (h e0 (List.mem_of_find?_eq_some h1)).2 e he

/-- **C65**: for every text, every section name without a line break and every key, looking a value up in the table of pointers reads
    inside the copy of the text only and gives the value of the last entry with that key in the sections with that name. -/
theorem C65_values (s name key : Bytes) (hn : ∀ c ∈ name, c ≠ 10 ∧ c ≠ 13) :
    (loadData s >>= fun r => getValue r.1 r.2 name key) = .ok (lastValue key (entriesOf name (items s))) := by
  obtain ⟨m, t, b, h1, _, h2, h3⟩ := loadData_ok s
  rw [h1, Outcome.ok_bind, ← C18_last_value]
  unfold getValue Ini.getValue
  obtain ⟨o, o1, o2, o3⟩ := find_abs h2 name
  rw [o1, Outcome.ok_bind, ← h3, find_clean hn, ← o2]
  cases o with
  | none => rfl
  | some kv =>
    simp only [Option.map_some, Option.bind_some, findKey, List.find?_map, Function.comp_def]
    cases hf : kv.find? (fun e => sameName (str m (some e.1)) key) with
    | none => rfl
    | some e =>
      obtain ⟨x, hx⟩ := (o3 kv rfl e (List.mem_of_find?_eq_some hf)).2
      simp only [Option.map_some, cstr, hx.str.2, if_true, Outcome.ok_bind]

/-- **C65**: the same for the keys of a section. -/
theorem C65_keys (s name : Bytes) (hn : ∀ c ∈ name, c ≠ 10 ∧ c ≠ 13) : ∃ ks, (loadData s >>= fun r => getAllKeys r.1 r.2 name) = .ok ks
    ∧ (∀ k, k ∈ ks ↔ firstSpelling k (entriesOf name (items s)) = some k) ∧ ks.Pairwise (fun a b => ¬ SameCI a b) := by
  refine ⟨Ini.getAllKeys (load s) name, ?_, fun k => C18_first_spelling s name k, C18_keys_distinct s name⟩
  obtain ⟨m, t, b, h1, _, h2, h3⟩ := loadData_ok s
  rw [h1, Outcome.ok_bind]
  unfold getAllKeys Ini.getAllKeys
  obtain ⟨o, o1, o2, o3⟩ := find_abs h2 name
  rw [o1, Outcome.ok_bind, ← h3, find_clean hn, ← o2]
  cases o with
  | none => rfl
  | some kv => simp [Function.comp_def]

theorem section_build (p : Bytes) (is : List Item) : ∀ (cur : Option Bytes) (d : Data),
    findSection p (build cur d is) = none ↔ findSection p d = none ∧ (∀ n, Item.header n ∈ is → ¬ SameCI n p) ∧ entriesFrom p (isCur p cur) is = [] := by
  induction is with
  | nil => intro cur d; cases cur <;> simp [build, entriesFrom]
  | cons i is ih =>
    intro cur d
    cases i with
    | header n =>
      rw [build, ih, entriesFrom, decide_sameCI, findSection_addSection]
      cases hs : sameName n p with
      | true =>
        have := (sameName_iff n p).mp hs
        simp only [if_true, reduceCtorEq, false_and, false_iff]
        rintro ⟨_, h, _⟩
        exact h n (by simp) this
      | false =>
        have : ¬ SameCI n p := fun h => by rw [(sameName_iff n p).mpr h] at hs; cases hs
        simp only [Bool.false_eq_true, if_false, isCur, hs, List.mem_cons, Item.header.injEq, forall_eq_or_imp]
        simp [this]
    | badHeader => rw [build, ih, entriesFrom]; simp [isCur]
    | entry k v =>
      cases cur with
      | none => rw [build, ih, isCur, entriesFrom]; simp
      | some s =>
        rw [build, ih, findSection_addKey]
        cases hs : sameName s p with
        | true => simp [isCur, hs, entriesFrom]
        | false => simp [isCur, hs, entriesFrom]

theorem section_load (p s : Bytes) : findSection p (load s) = none ↔ (∀ n, Item.header n ∈ items s → ¬ SameCI n p) ∧ entriesOf p (items s) = [] := by
  unfold load entriesOf
  rw [section_build]
  have : isCur p (some []) = decide (p = []) := by
    simp only [isCur]
    by_cases h : p = []
    · subst h; rfl
    · cases hs : sameName [] p with
      | false => simp [h]
      | true => exact absurd (sameName_nil.mp hs) h
  rw [this]
  simp [findSection]

/-- **C65**: the same for the size of a section, which is the number of its keys; there is none exactly if the text has neither a
    header with that name nor, for the empty name, an entry before the first header. -/
theorem C65_size (s name : Bytes) (hn : ∀ c ∈ name, c ≠ 10 ∧ c ≠ 13) : ∃ z, (loadData s >>= fun r => getSectionSize r.1 r.2 name) = .ok z
    ∧ (z = -1 ∨ (loadData s >>= fun r => getAllKeys r.1 r.2 name) >>= (fun ks => .ok (ks.length : Int)) = .ok z)
    ∧ (0 < z ↔ entriesOf name (items s) ≠ [])
    ∧ (z = -1 ↔ (∀ n, Item.header n ∈ items s → ¬ SameCI n name) ∧ entriesOf name (items s) = []) := by
  refine ⟨Ini.getSectionSize (load s) name, ?_, ?_, C18_section_size s name, ?_⟩
  rotate_right
  · rw [← section_load]
    unfold Ini.getSectionSize
    cases findSection name (load s) with
    | none => simp
    | some kv => simp only [reduceCtorEq, iff_false]
  all_goals
    obtain ⟨m, t, b, h1, _, h2, h3⟩ := loadData_ok s
    rw [h1, Outcome.ok_bind]
    unfold Ini.getSectionSize
    obtain ⟨o, o1, o2, o3⟩ := find_abs h2 name
    rw [← h3, find_clean hn, ← o2]
  · unfold getSectionSize
    rw [o1, Outcome.ok_bind]
    cases o <;> simp
  · unfold getAllKeys
    rw [o1, Outcome.ok_bind]
    cases o with
    | none => left; rfl
    | some kv => right; simp [Outcome.ok_bind]

/-- **C65**: for a text written line by line, what is found are the entries of the lines. -/
theorem C65_text {t : Text} (ht : t.WF) (name key : Bytes) (hn : ∀ c ∈ name, c ≠ 10 ∧ c ≠ 13) :
    (loadData t.render >>= fun r => getValue r.1 r.2 name key) = .ok (lastValue key (entriesOf name t.items)) := by
  rw [C65_values t.render name key hn, items_text ht]

/-! ## The order of the maps -/

theorem toInt8_inj {a b : UInt8} (h : a.toInt8.toInt = b.toInt8.toInt) : a = b := by
  have := Int8.toInt_inj.mp h
  simpa using congrArg Int8.toUInt8 this

theorem less_irrefl (a : Bytes) : less a a = false := by
  induction a with
  | nil => rfl
  | cons c a ih => rw [less, if_pos rfl, ih]

/-- **C65**: the order the maps of sections and keys are kept in is a strict weak order, as `std::multimap` demands. -/
theorem C65_order_trans : ∀ {a b c : Bytes}, less a b = true → less b c = true → less a c = true := by
  intro a
  induction a with
  | nil =>
    intro b c h1 h2
    cases c with
    | nil => cases b <;> simp [less] at h2
    | cons z c => rfl
  | cons x a ih =>
    intro b c h1 h2
    cases b with
    | nil => simp [less] at h1
    | cons y b =>
      cases c with
      | nil => simp [less] at h2
      | cons z c =>
        rw [less] at h1 h2 ⊢
        by_cases hxy : locase x = locase y
        · rw [if_pos hxy] at h1
          by_cases hyz : locase y = locase z
          · rw [if_pos hyz] at h2
            rw [if_pos (hxy.trans hyz)]
            exact ih h1 h2
          · rw [if_neg hyz] at h2
            rw [if_neg (by rw [hxy]; exact hyz), hxy]; exact h2
        · rw [if_neg hxy, decide_eq_true_eq] at h1
          by_cases hyz : locase y = locase z
          · rw [← hyz, if_neg hxy, decide_eq_true_eq]; exact h1
          · rw [if_neg hyz, decide_eq_true_eq] at h2
            rw [if_neg, decide_eq_true_eq]
            · omega
            · intro h; rw [h] at h1; omega

theorem C65_order_irrefl (a : Bytes) : less a a = false := less_irrefl a

/-- **C65**: names are equivalent in that order exactly if they are the same up to the case of ASCII letters. -/
theorem C65_order_same : ∀ {a b : Bytes}, (less a b = false ∧ less b a = false) ↔ SameCI a b := by
  intro a b
  rw [← sameName_iff]
  unfold sameName
  rw [beq_iff_eq]
  induction a generalizing b with
  | nil =>
    cases b with
    | nil => simp [less]
    | cons y b => simp [less]
  | cons x a ih =>
    cases b with
    | nil => simp [less]
    | cons y b =>
      rw [less, less, List.map_cons, List.map_cons, List.cons.injEq]
      by_cases hxy : locase x = locase y
      · rw [if_pos hxy, if_pos hxy.symm, ih]; simp [hxy]
      · rw [if_neg hxy, if_neg (fun h => hxy h.symm), decide_eq_false_iff_not, decide_eq_false_iff_not]
        constructor
        · rintro ⟨h1, h2⟩; exact absurd (toInt8_inj (by omega)) hxy
        · rintro ⟨h, _⟩; exact absurd h hxy

/-! ## Samples -/

def sampleBroken : Bytes := b!"; note\n\n# more\n[ My App ] x\nKEY = 1\nnoise\n = 2\nkey= 3 \r\n[open\nk=v\n"

/-- Comments, an unclosed header, a key in two spellings. -/
example : (loadData sampleBroken >>= fun r => getValue r.1 r.2 (b!"MY APP") (b!"Key")) = .ok (some (b!"3")) := by decide +kernel
example : (loadData sampleBroken >>= fun r => getAllKeys r.1 r.2 (b!"my app")) = .ok [b!"KEY"] := by decide +kernel
example : (loadData sampleBroken >>= fun r => getSectionSize r.1 r.2 (b!"my app")) = .ok 1 := by decide +kernel
example : (loadData sampleBroken >>= fun r => getSectionSize r.1 r.2 (b!"open")) = .ok (-1) := by decide +kernel

/-- **C65** (witness): a header that is not closed makes a section whose name goes on over the line break. -/
theorem C65_unclosed_header : (loadData sampleBroken >>= fun r => getValue r.1 r.2 (b!"open\nk") (b!"k")) = .ok (some (b!"v")) := by
  decide +kernel

end Licensecc.IniMem
