import Verif.Model.IniParse
import Verif.Props.IniMem
import Verif.Lemmas.IniSave
/-!
# Lemmas for C65: the whole parser in memory
-/
namespace Licensecc.IniParse
open Ini hiding loadComment
open IniMem hiding findEntry

/-! ## Texts and strings in the array -/

theorem seg_inj {m : Bytes} {p : Nat} : ∀ {a b : Bytes}, Seg m p a → Seg m p b → a.length = b.length → a = b := by
  intro a b ha hb hl
  refine List.ext_getElem? fun i => ?_
  by_cases hi : i < a.length
  · have h1 := ha i _ (List.getElem?_eq_getElem hi)
    have h2 := hb i _ (List.getElem?_eq_getElem (by omega))
    rw [h1] at h2
    rw [List.getElem?_eq_getElem hi, List.getElem?_eq_getElem (by omega), h2]
  · rw [List.getElem?_eq_none (by omega), List.getElem?_eq_none (by omega)]

theorem at_length {m : Bytes} {p : Nat} {a b : Bytes} (ha : At m p a) (hb : At m p b) : b.length ≤ a.length := by
  by_cases h : a.length < b.length
  · exfalso
    have h1 := ha.2 a.length 0 (by simp)
    have h2 := hb.2 a.length b[a.length] (by rw [List.getElem?_append_left h, List.getElem?_eq_getElem h])
    rw [h1] at h2
    exact hb.1 (by rw [Option.some.inj h2]; exact List.getElem_mem _)
  · omega

/-- One text stands at a place. -/
theorem at_inj {m : Bytes} {p : Nat} {a b : Bytes} (ha : At m p a) (hb : At m p b) : a = b := by
  have h1 := at_length ha hb
  have h2 := at_length hb ha
  exact seg_inj (seg_append.mp ha.2).1 (seg_append.mp hb.2).1 (by omega)

/-- What stands further on is the end of the text. -/
theorem at_rest {m : Bytes} {p q : Nat} {r r' : Bytes} (h : At m p r) (h' : At m q r') (h1 : p ≤ q) (h2 : q ≤ p + r.length) :
    ∃ x, r = x ++ r' ∧ q = p + x.length ∧ Seg m p x ∧ 0 ∉ x := by
  have hx : r = r.take (q - p) ++ r.drop (q - p) := (List.take_append_drop _ _).symm
  have hl : (r.take (q - p)).length = q - p := by rw [List.length_take]; omega
  have ha := h
  rw [hx] at ha
  obtain ⟨a1, a2, a3⟩ := ha.append
  rw [hl, show p + (q - p) = q by omega] at a3
  have := at_inj a3 h'
  exact ⟨_, by rw [← this]; exact hx, by omega, a1, a2⟩

theorem strIs_of_at {m : Bytes} {p : Nat} {r : Bytes} (h : At m p r) : StrIs m m.length p r := ⟨h.1, h.2, h.lt⟩

theorem StrIs.cstr {m : Bytes} {b x : Nat} {s : Bytes} (h : StrIs m b x s) : IniMem.cstr m x = .ok s := by
  unfold IniMem.cstr
  rw [if_pos h.str.2, h.str.1]

theorem strIs_bound {m : Bytes} {b x : Nat} {s : Bytes} (h : StrIs m b x s) : StrIs m m.length x s := by
  have := seg_lt h.2.1 (by simp)
  simp only [List.length_append, List.length_singleton] at this
  exact ⟨h.1, h.2.1, by omega⟩

/-- Strings that end below `b` stay: the arrays agree below `b - 1`, and a NUL below `b` stays. -/
def Keeps (m m' : Bytes) (b : Nat) : Prop :=
  m'.length = m.length ∧ (∀ i, i + 1 < b → m'[i]? = m[i]?) ∧ ∀ i, i < b → m[i]? = some 0 → m'[i]? = some 0

theorem Keeps.of_same {m m' : Bytes} {b : Nat} (h : Same m m' b) : Keeps m m' b :=
  ⟨h.1, fun i hi => h.2 i (by omega), fun i hi h0 => by rw [h.2 i hi]; exact h0⟩

theorem Keeps.refl (m : Bytes) (b : Nat) : Keeps m m b := .of_same (Same.refl m b)

theorem Keeps.trans {m m' m'' : Bytes} {b : Nat} (h : Keeps m m' b) (h' : Keeps m' m'' b) : Keeps m m'' b :=
  ⟨h'.1.trans h.1, fun i hi => (h'.2.1 i hi).trans (h.2.1 i hi), fun i hi h0 => h'.2.2 i hi (h.2.2 i hi h0)⟩

theorem Keeps.mono {m m' : Bytes} {b c : Nat} (h : Keeps m m' b) (hc : c ≤ b) : Keeps m m' c :=
  ⟨h.1, fun i hi => h.2.1 i (by omega), fun i hi => h.2.2 i (by omega)⟩

theorem keeps_set {m : Bytes} {q b : Nat} (h : b ≤ q + 1) : Keeps m (m.set q 0) b := by
  refine ⟨by simp, fun i hi => by rw [List.getElem?_set_ne (by omega)], fun i hi h0 => ?_⟩
  by_cases hq : q = i
  · subst hq
    rw [List.getElem?_set_self (List.getElem?_eq_some_iff.mp h0).1]
  · rw [List.getElem?_set_ne hq]; exact h0

theorem StrIs.keeps {m m' : Bytes} {b x : Nat} {s : Bytes} (h : StrIs m b x s) (hk : Keeps m m' b) : StrIs m' b x s := by
  obtain ⟨h1, h2, h3⟩ := h
  obtain ⟨h4, h5⟩ := seg_append.mp h2
  refine ⟨h1, seg_append.mpr ⟨fun i c hc => ?_, seg_cons.mpr ⟨?_, seg_nil _ _⟩⟩, h3⟩
  · have : i < s.length := (List.getElem?_eq_some_iff.mp hc).1
    rw [hk.2.1 _ (by omega)]; exact h4 i c hc
  · exact hk.2.2 _ h3 (seg_cons.mp h5).1

/-! ## Lines -/

theorem newLines_seg : ∀ (n : Nat) (m : Bytes) (d : Nat) (m' : Bytes), newLines n m d = .ok m' →
    Seg m' d (List.replicate n 10) ∧ Same m m' d
  | 0, m, d, m', h => by cases h; exact ⟨seg_nil _ _, Same.refl _ _⟩
  | n + 1, m, d, m', h => by
    rw [newLines] at h
    unfold wr at h
    split at h
    · rename_i hd
      rw [Outcome.ok_bind] at h
      obtain ⟨h1, h2⟩ := newLines_seg n _ _ _ h
      refine ⟨?_, (same_set (Nat.le_refl _)).trans (h2.mono (Nat.le_succ _))⟩
      rw [List.replicate_succ, seg_cons]
      refine ⟨?_, h1⟩
      rw [h2.2 d (Nat.lt_succ_self _), List.getElem?_set_self hd]
    · cases h

theorem readAhead_count {m : Bytes} : ∀ (fuel : Nat) (r : Bytes) (p n : Nat), At m p r → r.length < fuel →
    ∃ q, readAhead m fuel p n = .ok (q, n + IniStore.commentText.breaks (r.takeWhile isSp)) := by
  intro fuel
  induction fuel with
  | zero => intro r p n _ h; omega
  | succ fuel ih =>
    intro r p n h hf
    rw [readAhead]
    cases r with
    | nil =>
      rw [h.nil, Outcome.ok_bind, if_neg (by decide)]
      exact ⟨p, rfl⟩
    | cons c r =>
      obtain ⟨h1, _, h3⟩ := h.cons
      rw [h1, Outcome.ok_bind]
      cases hs : isSp c with
      | false =>
        rw [if_neg (by simp), List.takeWhile_cons_of_neg (by simp [hs])]
        exact ⟨p, rfl⟩
      | true =>
        rw [if_pos rfl]
        cases hn : isNL c with
        | true =>
          obtain ⟨q, q1, q2, q3, q4⟩ := skipNewLine_at h
          rw [if_pos rfl, q1, Outcome.ok_bind]
          have hsh := skipNewLine_shorter c r
          obtain ⟨z, hz⟩ := ih _ q (n + 1) q2 (by simp at hf; omega)
          refine ⟨z, ?_⟩
          rw [hz]
          have : IniStore.commentText.breaks ((c :: r).takeWhile isSp) = IniStore.commentText.breaks ((Ini.skipNewLine (c :: r)).takeWhile isSp) + 1 := by
            rw [List.takeWhile_cons_of_pos hs]
            unfold Ini.skipNewLine
            split
            · rename_i heq
              simp only [List.cons.injEq] at heq
              obtain ⟨rfl, rfl⟩ := heq
              rw [List.takeWhile_cons_of_pos (by decide)]
              rfl
            · rename_i t hno heq
              simp only [List.cons.injEq] at heq
              obtain ⟨rfl, rfl⟩ := heq
              rw [IniStore.commentText.breaks, if_pos hn]
              intro t' h13 h10
              cases r with
              | nil => simp at h10
              | cons e r =>
                rw [List.takeWhile_cons] at h10
                split at h10
                · simp only [List.cons.injEq] at h10
                  exact hno r h13 (by rw [h10.1])
                · cases h10
            · rename_i heq; cases heq
          rw [this]
          refine congrArg (fun k => Outcome.ok (z, k)) ?_
          omega
        | false =>
          rw [if_neg (by simp)]
          obtain ⟨z, hz⟩ := ih r (p + 1) n h3 (by simp at hf; omega)
          refine ⟨z, ?_⟩
          rw [hz, List.takeWhile_cons_of_pos hs, IniStore.commentText.breaks, if_neg (by simp [hn])]
          intro t' h13
          subst h13
          cases hn

theorem moveLine_seg {m m' : Bytes} {d p e : Nat} {x : Bytes} (hm : moveLine m d p e = .ok m') (hx : Seg m p x) (he : e = p + x.length) (hd : d ≤ p)
    (hl : e < m.length) : Seg m' d x ∧ (d < p → m'[d + x.length]? = some 0) := by
  unfold moveLine at hm
  by_cases hlt : d < p
  · rw [if_pos hlt] at hm
    unfold move at hm
    have hep : e - p = x.length := by omega
    rw [hep, if_pos ⟨by omega, by omega⟩, Outcome.ok_bind] at hm
    obtain ⟨post, hpost⟩ := seg_drop x hx
    have htake : (m.drop p).take x.length = x := by rw [hpost]; simp
    rw [htake] at hm
    have hlen : (m.take d ++ x ++ m.drop (d + x.length)).length = m.length := by
      simp only [List.length_append, List.length_take, List.length_drop]; omega
    rw [wr_ok (by omega)] at hm
    cases hm
    refine ⟨seg_set ?_ (.inr (by omega)), fun _ => List.getElem?_set_self (by omega)⟩
    intro i c hc
    have hi : i < x.length := (List.getElem?_eq_some_iff.mp hc).1
    have hd' : (m.take d).length = d := by rw [List.length_take]; omega
    rw [List.append_assoc, List.getElem?_append_right (by omega), hd', show d + i - d = i by omega, List.getElem?_append_left hi]
    exact hc
  · rw [if_neg hlt] at hm
    cases hm
    have : d = p := by omega
    subst this
    exact ⟨hx, fun h => absurd h hlt⟩

/-- A line is moved to `d` and ended there. -/
theorem line_step {m : Bytes} {p d : Nat} {t : Bytes} (h : At m p t) (hd : d ≤ p) : ∃ x y m1 m2, t = x ++ y
    ∧ x = t.takeWhile (fun c => !isNL c) ∧ y = t.dropWhile (fun c => !isNL c)
    ∧ scan (fun c => !isNL c) m (m.length + 1) p = .ok (p + x.length) ∧ moveLine m d p (p + x.length) = .ok m1
    ∧ At m1 (p + x.length) y ∧ Same m m1 d ∧ wr m1 (p + x.length) 0 = .ok m2 ∧ Seg m2 d (x ++ [0]) ∧ 0 ∉ x ∧ Same m m2 d
    ∧ (y = [] → rd m1 (p + x.length) = .ok 0 ∧ m2 = m1)
    ∧ ∀ c w, y = c :: w → rd m1 (p + x.length) = .ok c ∧ c ≠ 0 ∧ isNL c = true ∧ wr m2 (p + x.length) c = .ok m1
      ∧ (d = p → m1 = m) ∧ ∃ q m3, skipNewLine m1 (p + x.length) = .ok q ∧ At m1 q (Ini.skipNewLine y)
        ∧ p + x.length < q ∧ wr m1 (d + (p + x.length - p)) 10 = .ok m3 ∧ At m3 q (Ini.skipNewLine y) ∧ Seg m3 d (x ++ [10]) ∧ Same m m3 d := by
  obtain ⟨x, y, hxy, hx, hy, _, hstop, e1, e2, e3, e4⟩ := scan_split (cond := fun c => !isNL c) h
  obtain ⟨m1, f1, f2, f3⟩ := moveLine_ok (b := d) e4 hd (by omega : p ≤ p + x.length) (Nat.le_refl _)
  have hlt := f2.lt
  have hltm := e4.lt
  obtain ⟨s1, s2⟩ := moveLine_seg f1 e2 rfl hd (by omega)
  refine ⟨x, y, m1, m1.set (p + x.length) 0, hxy, hx, hy, e1, f1, f2, f3, wr_ok (by omega), ?_, e3, f3.trans (same_set (by omega)), ?_, ?_⟩
  · rw [seg_append]
    refine ⟨seg_set s1 (.inr (by omega)), seg_cons.mpr ⟨?_, seg_nil _ _⟩⟩
    by_cases hdp : d = p
    · subst hdp
      rw [List.getElem?_set_self (by omega)]
    · rw [List.getElem?_set_ne (by omega)]
      exact s2 (by omega)
  · rintro rfl
    exact ⟨f2.nil, set_same (seg_cons.mp f2.2).1⟩
  · rintro c w rfl
    obtain ⟨g1, g2, g3⟩ := f2.cons
    have hnl : isNL c = true := by have := hstop c rfl; simpa using this
    obtain ⟨q, q1, q2, q3, _⟩ := skipNewLine_at f2
    have hc : m1[p + x.length]? = some c := (seg_cons.mp f2.2).1
    refine ⟨g1, g2, hnl, ?_, ?_, q, m1.set (d + x.length) 10, q1, q2, q3, ?_, q2.set (by omega), ?_, f3.trans (same_set (by omega))⟩
    · rw [wr_ok (by simp; omega), List.set_set, set_same hc]
    · rintro rfl
      unfold moveLine at f1
      rw [if_neg (Nat.lt_irrefl _)] at f1
      cases f1; rfl
    · rw [show p + x.length - p = x.length by omega, wr_ok (by omega)]
    · rw [seg_append]
      refine ⟨seg_set s1 (.inr (by omega)), seg_cons.mpr ⟨?_, seg_nil _ _⟩⟩
      rw [List.getElem?_set_self (by omega)]

/-! ## Comments -/

theorem rd_starts {m : Bytes} {p : Nat} {t : Bytes} (h : At m p t) : ∃ c, rd m p = .ok c ∧ isComment c = startsComment t := by
  cases t with
  | nil => exact ⟨0, h.nil, by decide⟩
  | cons c r => exact ⟨c, h.cons.1, rfl⟩

theorem seg_last {m : Bytes} {p : Nat} {acc : Bytes} (h : Seg m p acc) : Seg m p acc.dropLast := by
  intro i c hc
  refine h i c ?_
  rw [List.getElem?_dropLast] at hc
  split at hc
  · exact hc
  · cases hc

theorem commentLoop_text (ab : Bool) : ∀ (fuel n : Nat) (m : Bytes) (p d v : Nat) (t acc : Bytes), At m p t → Seg m v acc → 0 ∉ acc → v + acc.length = d →
    d ≤ p → t.length < fuel → (startsComment t = true → t.length ≤ n) → (startsComment t = false → t.length < n ∧ acc ≠ []) →
    ∃ l, commentLoop ab fuel m p d = .ok l ∧ Same m l.mem v ∧ v < l.data
      ∧ (l.ended = true → (IniStore.commentText ab n acc t).2 = [] ∧ At l.mem l.data []
        ∧ StrIs l.mem l.mem.length v (IniStore.commentText ab n acc t).1)
      ∧ (l.ended = false → At l.mem l.data (IniStore.commentText ab n acc t).2 ∧ l.dataLine ≤ l.data
        ∧ Seg l.mem v (IniStore.commentText ab n acc t).1 ∧ 0 ∉ (IniStore.commentText ab n acc t).1
        ∧ v + (IniStore.commentText ab n acc t).1.length + 1 = l.dataLine) := by
  intro fuel
  induction fuel with
  | zero => intro n m p d v t acc _ _ _ _ _ h; omega
  | succ fuel ih =>
    intro n m p d v t acc h hacc hacc0 hd hdp hf hn1 hn2
    rw [commentLoop]
    obtain ⟨c0, hc0, hs0⟩ := rd_starts h
    rw [hc0, Outcome.ok_bind, hs0]
    cases hs : startsComment t with
    | true =>
      rw [if_pos rfl]
      have hne : t ≠ [] := by rintro rfl; cases hs
      obtain ⟨n, rfl⟩ : ∃ k, n = k + 1 := by
        have := hn1 hs
        have := List.length_pos_iff.mpr hne
        exact ⟨n - 1, by omega⟩
      obtain ⟨x, y, m1, m2, hxy, hx, hy, l1, l2, l3, l4, l5, l6, l7, l8, l9, l10⟩ := line_step h hdp
      rw [l1, Outcome.ok_bind, l2, Outcome.ok_bind]
      have hxpos : 0 < x.length := by
        cases t with
        | nil => cases hs
        | cons c r =>
          rw [hx, List.takeWhile_cons_of_pos (by simpa using isNL_of_comment hs)]
          simp
      rw [IniStore.commentText, if_pos hs]
      simp only [← hx, ← hy]
      cases y with
      | nil =>
        obtain ⟨r1, r2⟩ := l9 rfl
        subst r2
        rw [r1, Outcome.ok_bind, l5, Outcome.ok_bind, if_pos rfl, if_pos rfl]
        refine ⟨_, rfl, l4.mono (by omega), by simp only; omega, fun _ => ⟨rfl, l3, ?_⟩, by simp⟩
        refine strIs_bound (b := p + x.length + 1) ⟨by simp [hacc0, l7], ?_, ?_⟩
        · rw [List.append_assoc, seg_append]
          refine ⟨seg_same l4 hacc (by omega), ?_⟩
          rw [hd]; exact l6
        · simp only [List.length_append]; omega
      | cons c w =>
        obtain ⟨r1, r2, r3, r4, _, q, m3, q1, q2, q3, q4, q5, q6, q7⟩ := l10 c w rfl
        rw [r1, Outcome.ok_bind, l5, Outcome.ok_bind, if_neg r2, r4, Outcome.ok_bind, q1, Outcome.ok_bind, q4, Outcome.ok_bind, if_neg (by simp)]
        have hlen : t.length = x.length + (w.length + 1) := by rw [hxy]; simp
        have hsh := skipNewLine_shorter c w
        rw [show p + x.length - p = x.length by omega]
        have hn := hn1 hs
        obtain ⟨l, i1, i2, i3, i4, i5⟩ := ih n m3 q (d + x.length + 1) v (Ini.skipNewLine (c :: w)) (acc ++ x ++ [10]) q5
          (by rw [List.append_assoc, seg_append]; exact ⟨seg_same q7 hacc (by omega), by rw [hd]; exact q6⟩) (by simp [hacc0, l7])
          (by simp only [List.length_append, List.length_singleton]; omega) (by omega) (by omega) (by intro _; omega) (by intro _; exact ⟨by omega, by simp⟩)
        exact ⟨l, i1, (q7.mono (by omega)).trans i2, i3, i4, i5⟩
    | false =>
      obtain ⟨hn, hne⟩ := hn2 hs
      obtain ⟨n, rfl⟩ : ∃ k, n = k + 1 := ⟨n - 1, by omega⟩
      rw [if_neg Bool.false_ne_true, IniStore.commentText, if_neg (show ¬ startsComment t = true by simp [hs])]
      have hdone : ∃ l, (.ok ⟨m, p, d, false⟩ : Outcome Loaded) = .ok l ∧ Same m l.mem v ∧ v < l.data
          ∧ (l.ended = true → (acc.dropLast, t).2 = [] ∧ At l.mem l.data [] ∧ StrIs l.mem l.mem.length v (acc.dropLast, t).1)
          ∧ (l.ended = false → At l.mem l.data (acc.dropLast, t).2 ∧ l.dataLine ≤ l.data ∧ Seg l.mem v (acc.dropLast, t).1
            ∧ 0 ∉ (acc.dropLast, t).1 ∧ v + (acc.dropLast, t).1.length + 1 = l.dataLine) := by
        have hpos := List.length_pos_iff.mpr hne
        refine ⟨_, rfl, Same.refl _ _, by simp only; omega, by simp, fun _ => ⟨h, hdp, seg_last hacc, fun h0 => hacc0 (List.dropLast_subset acc h0), ?_⟩⟩
        simp only [List.length_dropLast]
        omega
      cases ab with
      | false =>
        rw [if_neg Bool.false_ne_true, if_neg Bool.false_ne_true]
        exact hdone
      | true =>
        rw [if_pos rfl, if_pos rfl]
        have hlt := h.lt
        obtain ⟨q, k, q1, q2, q3, q4⟩ := readAhead_at (m.length + 1) t p 0 h (by omega)
        obtain ⟨q', z1⟩ := readAhead_count (m.length + 1) t p 0 h (by omega)
        have hk : k = IniStore.commentText.breaks (t.takeWhile isSp) := by
          rw [q1] at z1
          simp only [Outcome.ok.injEq, Prod.mk.injEq] at z1
          omega
        rw [q1, Outcome.ok_bind]
        simp only [Nat.zero_add]
        obtain ⟨c1, hc1, hs1⟩ := rd_starts q2
        rw [hc1, Outcome.ok_bind, hs1]
        cases hs2 : startsComment (t.dropWhile isSp) with
        | false =>
          rw [if_neg Bool.false_ne_true, if_neg Bool.false_ne_true]
          exact hdone
        | true =>
          rw [if_pos rfl, if_pos rfl, ← hk]
          have hne : t.dropWhile isSp ≠ t := by intro h0; rw [h0, hs] at hs2; simp at hs2
          have hpq := q4 hne
          obtain ⟨m1, n1, n2, n3⟩ := newLines_ok k m d q _ d q2 (by omega) (Nat.le_refl _)
          obtain ⟨n4, _⟩ := newLines_seg _ _ _ _ n1
          rw [n1, Outcome.ok_bind]
          have hle : (t.dropWhile isSp).length < t.length := by
            have := List.takeWhile_append_dropWhile (p := isSp) (l := t)
            have h2 := congrArg List.length this
            rw [List.length_append] at h2
            have : (t.takeWhile isSp).length ≠ 0 := by
              intro h0
              rw [List.length_eq_zero_iff.mp h0, List.nil_append] at this
              exact hne this
            omega
          obtain ⟨l, i1, i2, i3, i4, i5⟩ := ih n m1 q (d + k) v _ (acc ++ List.replicate k 10) n2
            (by rw [seg_append]; exact ⟨seg_same n3 hacc (by omega), by rw [hd]; exact n4⟩)
            (by simp only [List.mem_append, List.mem_replicate, not_or]; exact ⟨hacc0, fun h => absurd h.2 (by decide)⟩)
            (by simp only [List.length_append, List.length_replicate]; omega) (by omega) (by omega) (by intro _; omega) (by rw [hs2]; simp)
          exact ⟨l, i1, (n3.mono (by omega)).trans i2, i3, i4, i5⟩

/-- A comment: where it stands, and the text that remains. -/
theorem loadComment_text (ab : Bool) {m : Bytes} {p : Nat} {t : Bytes} (h : At m p t) (hs : startsComment t = true) :
    ∃ m' q b, loadComment ab m p = .ok (m', q, some p) ∧ At m' q (IniStore.commentText ab t.length [] t).2 ∧ Same m m' p ∧ p < q
      ∧ StrIs m' b p (IniStore.commentText ab t.length [] t).1 ∧ ((IniStore.commentText ab t.length [] t).2 = [] ∨ b ≤ q) := by
  have hlt := h.lt
  obtain ⟨l, i1, i2, i3, i4, i5⟩ := commentLoop_text ab (m.length + 1) t.length m p p p t [] h (seg_nil _ _) (by simp) rfl (Nat.le_refl _) (by omega)
    (fun _ => Nat.le_refl _) (by rw [hs]; simp)
  unfold loadComment loadMultiLineText
  rw [i1]
  cases he : l.ended with
  | true =>
    obtain ⟨a1, a2, a3⟩ := i4 he
    refine ⟨l.mem, l.data, l.mem.length, ?_, by rw [a1]; exact a2, i2, i3, a3, .inl a1⟩
    simp only [Outcome.ok_bind, he, if_true]
    rw [if_neg (by omega)]
  | false =>
    obtain ⟨a1, a2, a3, a4, a5⟩ := i5 he
    have hlt' := a1.lt
    refine ⟨l.mem.set (l.dataLine - 1) 0, l.data, l.data, ?_, a1.set (by omega), i2.trans (same_set (by omega)), i3, ⟨a4, ?_, by omega⟩, .inr (Nat.le_refl _)⟩
    · simp only [Outcome.ok_bind, he, Bool.false_eq_true, if_false]
      rw [if_neg (by omega), wr_ok (by omega)]
      simp only [Outcome.ok_bind]
      rw [if_neg (by omega)]
    · rw [seg_append]
      refine ⟨seg_set a3 (.inr (by omega)), seg_cons.mpr ⟨?_, seg_nil _ _⟩⟩
      rw [show p + (IniStore.commentText ab t.length [] t).1.length = l.dataLine - 1 by omega, List.getElem?_set_self (by omega)]

/-- No comment. -/
theorem loadComment_none {m : Bytes} {p : Nat} {t : Bytes} (h : At m p t) (hs : startsComment t = false) : loadComment false m p = .ok (m, p, none) := by
  unfold loadComment loadMultiLineText
  rw [commentLoop]
  obtain ⟨c0, hc0, hs0⟩ := rd_starts h
  rw [hc0, Outcome.ok_bind, hs0, hs]
  simp only [Bool.false_eq_true, if_false, Outcome.ok_bind, if_true]

/-! ## Values of several lines -/

theorem sameStr_ok {m : Bytes} {a b x y : Nat} {s t : Bytes} (h1 : StrIs m x a s) (h2 : StrIs m y b t) : sameStr m a b = .ok (sameName s t) := by
  unfold sameStr
  rw [StrIs.cstr h1, Outcome.ok_bind, StrIs.cstr h2, Outcome.ok_bind]
  refine congrArg Outcome.ok ?_
  rw [Bool.eq_iff_iff, IniStore.same_iff]
  simp

theorem taggedText_fuel (tag : Bytes) : ∀ (n : Nat) (t : Bytes), t.length < n → ∀ k, t.length < k → ∀ acc,
    IniStore.taggedText tag n acc t = IniStore.taggedText tag k acc t := by
  intro n
  induction n with
  | zero => intro t h; omega
  | succ n ih =>
    intro t hn k hk acc
    match k, hk with
    | k + 1, hk =>
      rw [IniStore.taggedText, IniStore.taggedText]
      split
      · rfl
      · split
        · rfl
        · rename_i hne
          have h1 := length_dropWhile_le (fun c => !isNL c) t
          have h2 : (Ini.skipNewLine (t.dropWhile fun c => !isNL c)).length < (t.dropWhile fun c => !isNL c).length := by
            cases hd : t.dropWhile (fun c => !isNL c) with
            | nil => exact absurd hd hne
            | cons c w => have := skipNewLine_shorter c w; simp only [List.length_cons]; omega
          exact ih _ (by omega) k (by omega) _

/-- What `LoadMultiLineText` leads to. -/
def TagPost (m' : Bytes) (p q v : Nat) (b : Bool) (t : Bytes) : Option (Option Bytes × Bytes) → Prop
  | none => b = false
  | some (none, r') => b = true ∧ At m' q r' ∧ At m' p t ∧ p = v ∧ p ≤ q ∧ q ≤ p + t.length
  | some (some w, r') => b = true ∧ At m' q r' ∧ StrIs m' m'.length v w ∧ (r' = [] ∨ v + w.length < q) ∧ v ≤ q

theorem TagPost.further {m' : Bytes} {p p' q v : Nat} {b : Bool} {t t' : Bytes} {r : Option (Option Bytes × Bytes)} (h : TagPost m' p q v b t r) (hv : v < p) :
    TagPost m' p' q v b t' r := by
  match r, h with
  | none, h => exact h
  | some (none, _), h => exact absurd h.2.2.2.1 (by omega)
  | some (some _, _), h => exact h

theorem tagLoop_text : ∀ (fuel : Nat) (m : Bytes) (p d v : Nat) (t acc : Bytes) (bt tagp : Nat) (tag : Bytes), At m p t → Seg m v acc → 0 ∉ acc →
    v + acc.length = d → d ≤ p → (acc = [] → d = p) → StrIs m bt tagp tag → (bt ≤ v ∨ (t = [] ∧ acc = [])) → 0 < v → t.length < fuel →
    ∃ m' q b, (tagLoop tagp fuel m p d >>= finishTag v) = .ok (m', q, b) ∧ Keeps m m' v ∧ TagPost m' p q v b t (IniStore.taggedText tag fuel acc t) := by
  intro fuel
  induction fuel with
  | zero => intro m p d v t acc bt tagp tag _ _ _ _ _ _ _ _ _ h; omega
  | succ fuel ih =>
    intro m p d v t acc bt tagp tag h hacc hacc0 hd hdp hfirst htag hbt hv hf
    rw [tagLoop, IniStore.taggedText]
    obtain ⟨x, y, m1, m2, hxy, hx, hy, l1, l2, l3, l4, l5, l6, l7, l8, l9, l10⟩ := line_step h hdp
    simp only [← hx, ← hy]
    rw [l1, Outcome.ok_bind, l2, Outcome.ok_bind]
    have hlt1 := l3.lt
    have hm1 : m1.length = m.length := l4.1
    have hm2 : m2.length = m.length := l8.1
    -- the tag is still there
    have htag2 : StrIs m2 bt tagp tag := by
      rcases hbt with hbt | ⟨rfl, rfl⟩
      · exact htag.same (l8.mono (by omega))
      · have hx0 : x = [] := by rw [hx]; rfl
        have hy0 : y = [] := by rw [hy]; rfl
        obtain ⟨_, r2⟩ := l9 hy0
        have hdp' : d = p := hfirst rfl
        have : m1 = m := by
          subst hdp'
          unfold moveLine at l2
          rw [if_neg (Nat.lt_irrefl _)] at l2
          cases l2; rfl
        rw [r2, this]; exact htag
    have hline : StrIs m2 m2.length d x := by
      refine ⟨l7, l6, ?_⟩
      have := seg_lt l6 (by simp)
      simp only [List.length_append, List.length_singleton] at this
      omega
    have hcmp := sameStr_ok hline htag2
    have heol : ∃ c, rd m1 (p + x.length) = .ok c ∧ (c = 0 ↔ y = []) := by
      cases y with
      | nil => exact ⟨0, (l9 rfl).1, by simp⟩
      | cons c w => exact ⟨c, (l10 c w rfl).1, by simp [(l10 c w rfl).2.1]⟩
    obtain ⟨eol, he1, he2⟩ := heol
    rw [he1, Outcome.ok_bind, l5, Outcome.ok_bind, hcmp, Outcome.ok_bind]
    cases hsame : sameName x tag with
    | true =>
      rw [if_pos rfl, if_pos rfl, Outcome.ok_bind]
      unfold finishTag
      simp only [Bool.false_eq_true, if_false]
      by_cases ha : acc = []
      · subst ha
        have hdp' := hfirst rfl
        simp only [List.length_nil, Nat.add_zero] at hd
        rw [if_pos rfl]
        by_cases hx0 : x = []
        · rw [if_pos hx0]
          subst hx0
          rw [if_pos (by simp only [List.length_nil]; omega)]
          exact ⟨_, _, _, rfl, .of_same (l8.mono (by omega)), rfl⟩
        · rw [if_neg hx0]
          have hxp := List.length_pos_iff.mpr hx0
          rw [if_neg (by omega), if_neg (by omega), wr_ok (by omega), Outcome.ok_bind]
          have hk : Keeps m (m2.set (d - 1) 0) v := (Keeps.of_same (l8.mono (by omega))).trans (keeps_set (by omega))
          cases y with
          | nil =>
            rw [if_pos (he2.mpr rfl), if_pos rfl]
            refine ⟨_, _, _, rfl, hk, rfl, ?_, ?_, .inl rfl, by omega⟩
            · obtain ⟨_, r2⟩ := l9 rfl
              rw [r2]; exact l3.set (by omega)
            · subst hd
              refine strIs_bound (b := m.length) ⟨l7, seg_set l6 (.inl (by omega)), by omega⟩
          | cons c w =>
            rw [if_neg (by rw [he2]; simp), if_neg (by simp)]
            obtain ⟨r1, r2, r3, r4, r5, _⟩ := l10 c w rfl
            have hec : eol = c := by rw [he1] at r1; exact Outcome.ok.inj r1
            have hm : m1 = m := r5 hdp'
            subst hec
            have hcc : wr (m2.set (d - 1) 0) (p + x.length) eol = .ok (m1.set (d - 1) 0) := by
              rw [wr_ok (by simp; omega)]
              refine congrArg Outcome.ok ?_
              rw [List.set_comm _ _ (by omega)]
              unfold wr at r4
              split at r4
              · rw [Outcome.ok.inj r4]
              · cases r4
            rw [hcc, Outcome.ok_bind]
            have hat := l3.set (q := d - 1) (c := 0) (by omega)
            obtain ⟨q, q1, q2, q3, q4⟩ := skipNewLine_at hat
            rw [q1, Outcome.ok_bind]
            have hatp : At (m1.set (d - 1) 0) p t := by rw [hm]; exact h.set (by omega)
            refine ⟨_, _, _, rfl, ?_, rfl, q2, hatp, by omega, by omega, ?_⟩
            · rw [hm]; exact keeps_set (by omega)
            · -- the end of the text is where it was
              have hq := q2.lt
              have hlen : t.length = x.length + (w.length + 1) := by rw [hxy]; simp
              by_cases hq2 : q ≤ p + t.length
              · exact hq2
              · exfalso
                have : q = p + x.length + 2 := by omega
                have hw : w = [] := List.length_eq_zero_iff.mp (by omega)
                subst hw
                subst this
                unfold IniMem.skipNewLine at q1
                rw [hat.cons.1, Outcome.ok_bind] at q1
                split at q1
                · rw [hat.cons.2.2.nil, Outcome.ok_bind] at q1
                  have := Outcome.ok.inj q1
                  rw [if_neg (by decide)] at this
                  omega
                · have := Outcome.ok.inj q1
                  omega
      · rw [if_neg ha]
        have hap := List.length_pos_iff.mpr ha
        rw [if_neg (by omega), if_neg (by omega), wr_ok (by omega), Outcome.ok_bind]
        have hk : Keeps m (m2.set (d - 1) 0) v := Keeps.of_same ((l8.mono (by omega)).trans (same_set (by omega)))
        have hstr : StrIs (m2.set (d - 1) 0) d v acc.dropLast := by
          refine ⟨fun h0 => hacc0 (List.dropLast_subset acc h0), ?_, by rw [List.length_dropLast]; omega⟩
          rw [seg_append]
          refine ⟨seg_set (seg_last (seg_same l8 hacc (by omega))) (.inr (by rw [List.length_dropLast]; omega)), seg_cons.mpr ⟨?_, seg_nil _ _⟩⟩
          rw [List.length_dropLast, show v + (acc.length - 1) = d - 1 by omega, List.getElem?_set_self (by omega)]
        cases y with
        | nil =>
          rw [if_pos (he2.mpr rfl)]
          refine ⟨_, _, _, rfl, hk, rfl, ?_, strIs_bound hstr, .inl rfl, by omega⟩
          obtain ⟨_, r2⟩ := l9 rfl
          rw [r2]; exact l3.set (by omega)
        | cons c w =>
          rw [if_neg (by rw [he2]; simp)]
          obtain ⟨r1, r2, r3, r4, r5, _⟩ := l10 c w rfl
          have hec : eol = c := by rw [he1] at r1; exact Outcome.ok.inj r1
          subst hec
          have hcc : wr (m2.set (d - 1) 0) (p + x.length) eol = .ok (m1.set (d - 1) 0) := by
            rw [wr_ok (by simp; omega)]
            refine congrArg Outcome.ok ?_
            rw [List.set_comm _ _ (by omega)]
            unfold wr at r4
            split at r4
            · rw [Outcome.ok.inj r4]
            · cases r4
          have hk' : Keeps m (m1.set (d - 1) 0) v := Keeps.of_same ((l4.mono (by omega)).trans (same_set (by omega)))
          have hstr' : StrIs (m1.set (d - 1) 0) d v acc.dropLast := by
            refine ⟨hstr.1, ?_, hstr.2.2⟩
            rw [seg_append]
            refine ⟨seg_set (seg_last (seg_same l4 hacc (by omega))) (.inr (by rw [List.length_dropLast]; omega)), seg_cons.mpr ⟨?_, seg_nil _ _⟩⟩
            rw [List.length_dropLast, show v + (acc.length - 1) = d - 1 by omega, List.getElem?_set_self (by omega)]
          rw [hcc, Outcome.ok_bind]
          obtain ⟨q, q1, q2, q3, q4⟩ := skipNewLine_at (l3.set (q := d - 1) (c := 0) (by omega))
          rw [q1, Outcome.ok_bind]
          have := hstr'.2.2
          exact ⟨_, _, _, rfl, hk', rfl, q2, strIs_bound hstr', .inr (by omega), by omega⟩
    | false =>
      rw [if_neg Bool.false_ne_true, if_neg Bool.false_ne_true]
      cases y with
      | nil =>
        rw [if_pos (he2.mpr rfl), if_pos rfl, Outcome.ok_bind]
        unfold finishTag
        simp only [if_true]
        refine ⟨_, _, _, rfl, .of_same (l8.mono (by omega)), rfl, ?_, ?_, .inl rfl, by omega⟩
        · obtain ⟨_, r2⟩ := l9 rfl
          rw [r2]; exact l3
        · refine strIs_bound (b := m.length) ⟨by simp [hacc0, l7], ?_, by simp only [List.length_append]; omega⟩
          rw [List.append_assoc, seg_append]
          exact ⟨seg_same l8 hacc (by omega), by rw [hd]; exact l6⟩
      | cons c w =>
        rw [if_neg (by rw [he2]; simp), if_neg (by simp)]
        obtain ⟨r1, r2, r3, r4, r5, q, m3, q1, q2, q3, q4, q5, q6, q7⟩ := l10 c w rfl
        have hec : eol = c := by rw [he1] at r1; exact Outcome.ok.inj r1
        subst hec
        rw [r4, Outcome.ok_bind, q1, Outcome.ok_bind, q4, Outcome.ok_bind, show p + x.length - p = x.length by omega]
        have hlen : t.length = x.length + (w.length + 1) := by rw [hxy]; simp
        have hsh := skipNewLine_shorter eol w
        have hbt' : bt ≤ v := by
          rcases hbt with hbt | ⟨ht, _⟩
          · exact hbt
          · rw [ht] at hxy
            have := congrArg List.length hxy
            simp only [List.length_nil, List.length_append, List.length_cons] at this
            omega
        obtain ⟨m', q', b, i1, i2, i3⟩ := ih m3 q (d + x.length + 1) v (Ini.skipNewLine (eol :: w)) (acc ++ x ++ [10]) bt tagp tag q5
          (by rw [List.append_assoc, seg_append]; exact ⟨seg_same q7 hacc (by omega), by rw [hd]; exact q6⟩) (by simp [hacc0, l7])
          (by simp only [List.length_append, List.length_singleton]; omega) (by omega) (by simp) (htag.same (q7.mono (by omega))) (.inl hbt') hv (by omega)
        exact ⟨m', q', b, i1, (Keeps.of_same (q7.mono (by omega))).trans i2, i3.further (by omega)⟩

/-- A value of several lines. -/
theorem loadTagged_text {m : Bytes} {p bt tagp : Nat} {t tag : Bytes} (h : At m p t) (htag : StrIs m bt tagp tag) (hbt : bt ≤ p ∨ t = []) (hp : 0 < p) :
    ∃ m' q b, loadTagged m p tagp = .ok (m', q, b) ∧ Keeps m m' p ∧ TagPost m' p q p b t (IniStore.taggedText tag (t.length + 1) [] t) := by
  have hlt := h.lt
  obtain ⟨m', q, b, h1, h2, h3⟩ := tagLoop_text (m.length + 1) m p p p t [] bt tagp tag h (seg_nil _ _) (by simp) rfl (Nat.le_refl _) (fun _ => rfl) htag
    (hbt.imp id fun h => ⟨h, rfl⟩) hp (by omega)
  refine ⟨m', q, b, h1, h2, ?_⟩
  rw [taggedText_fuel tag _ t (Nat.lt_succ_self _) (m.length + 1) (by omega)]
  exact h3

theorem loadTagged_nil {m : Bytes} {p bt tagp : Nat} {tag : Bytes} (h : At m p []) (htag : StrIs m bt tagp tag) :
    loadTagged m p tagp = .ok (m, p, !(sameName [] tag)) := by
  have hlt := h.lt
  have hset : m.set p 0 = m := set_same (seg_cons.mp h.2).1
  unfold loadTagged
  rw [tagLoop, scan_at [] h (by simp), Outcome.ok_bind]
  simp only [List.takeWhile_nil, List.length_nil, Nat.add_zero]
  unfold moveLine
  rw [if_neg (Nat.lt_irrefl _), Outcome.ok_bind, h.nil, Outcome.ok_bind, wr_ok (by simpa using hlt), Outcome.ok_bind, hset,
    sameStr_ok (strIs_of_at h) htag, Outcome.ok_bind]
  unfold finishTag
  cases hs : sameName [] tag with
  | true => simp only [if_true, Outcome.ok_bind, Bool.false_eq_true, if_false]; rfl
  | false => simp only [Bool.false_eq_true, if_false, if_true, Outcome.ok_bind]; rfl

theorem isTag_ok {m : Bytes} {b v : Nat} {s : Bytes} (h : StrIs m b v s) :
    isTag m v = .ok (s.take 3 == b!"<<<") ∧ ((s.take 3 == b!"<<<") = true → StrIs m b (v + 3) (s.drop 3)) := by
  have hat : At m v s := ⟨h.1, h.2.1⟩
  unfold isTag
  cases s with
  | nil => rw [hat.nil, Outcome.ok_bind]; exact ⟨rfl, by simp⟩
  | cons x s =>
    obtain ⟨a1, _, a2⟩ := hat.cons
    rw [a1, Outcome.ok_bind]
    by_cases hx : x = 60
    · subst hx
      rw [if_neg (by simp)]
      cases s with
      | nil => rw [a2.nil, Outcome.ok_bind]; exact ⟨rfl, by simp⟩
      | cons y s =>
        obtain ⟨b1, _, b2⟩ := a2.cons
        rw [b1, Outcome.ok_bind]
        by_cases hy : y = 60
        · subst hy
          rw [if_neg (by simp)]
          cases s with
          | nil => rw [b2.nil, Outcome.ok_bind]; exact ⟨rfl, by simp⟩
          | cons z s =>
            obtain ⟨c1, _, c2⟩ := b2.cons
            rw [c1, Outcome.ok_bind]
            refine ⟨?_, fun _ => ⟨c2.1, c2.2, ?_⟩⟩
            · refine congrArg Outcome.ok ?_
              rw [Bool.eq_iff_iff]
              simp
            · have := h.2.2
              simp only [List.length_cons, List.drop_succ_cons, List.drop_zero] at this ⊢
              omega
        · rw [if_pos hy]
          have : (List.take 3 (60 :: y :: s) == b!"<<<") = false := by
            rw [beq_eq_false_iff_ne]
            intro hh
            simp only [List.take_succ_cons, List.cons.injEq] at hh
            exact hy hh.2.1
          rw [this]
          exact ⟨rfl, by simp⟩
    · rw [if_pos hx]
      have : (List.take 3 (x :: s) == b!"<<<") = false := by
        rw [beq_eq_false_iff_ne]
        intro hh
        simp only [List.take_succ_cons, List.cons.injEq] at hh
        exact hx hh.1
      rw [this]
      exact ⟨rfl, by simp⟩

/-! ## What is found, without a bound on the rounds -/

theorem comment_progress {t : Bytes} (hc : startsComment t = true) : (IniStore.commentText true t.length [] t).2.length < t.length := by
  rw [IniStore.commentText_snd]
  cases t with
  | nil => cases hc
  | cons x r =>
    have := loadComment_progress (b := true) (n := (x :: r).length) (c := x) (r := r) hc (by simp)
    simp only [List.length_cons] at this ⊢
    omega

theorem openEnd_fuel (start : Bytes) : ∀ (n : Nat) (t : Bytes), t.length < n → ∀ k, t.length < k → IniStore.openEnd start n t = IniStore.openEnd start k t := by
  intro n
  induction n with
  | zero => intro t h; omega
  | succ n ih =>
    intro t hn k hk
    match k, hk with
    | k + 1, hk =>
      rw [IniStore.openEnd, IniStore.openEnd]
      have hd := length_dropWhile_le isSp t
      have hs := step_progress (t.dropWhile isSp)
      split
      · rfl
      · cases hst : step (t.dropWhile isSp) with
        | done => rfl
        | header a r => rfl
        | entry a v r => rfl
        | skip r =>
          rw [hst] at hs
          have hs : r.length < (t.dropWhile isSp).length := by rcases hs with hs | hs; · cases hs
                                                               · exact hs
          exact ih _ (by omega) k (by omega)
        | badHeader r =>
          rw [hst] at hs
          have hs : r.length < (t.dropWhile isSp).length := by rcases hs with hs | hs; · cases hs
                                                               · exact hs
          exact ih _ (by omega) k (by omega)

/-- The end of a value that runs on. -/
def ends (start t : Bytes) : Bytes := IniStore.openEnd start (t.length + 1) t

theorem ends_eq (start t : Bytes) : ends start t =
    if startsComment (t.dropWhile isSp) then
      start.take (start.length - (t.dropWhile isSp).length) ++ (IniStore.commentText true (t.dropWhile isSp).length [] (t.dropWhile isSp)).1
    else match step t with
      | .done => start
      | .skip r => ends start r
      | .badHeader r => ends start r
      | .header n _ => start.take (start.length - ((t.dropWhile isSp).tail.dropWhile isSp).length) ++ n
      | .entry k _ _ => start.take (start.length - (t.dropWhile isSp).length) ++ k := by
  rw [ends, IniStore.openEnd]
  have hd := length_dropWhile_le isSp t
  have hs := step_progress (t.dropWhile isSp)
  rw [step_dropSpace] at hs ⊢
  split
  · rfl
  · cases hst : step t with
    | done => rfl
    | header a r => rfl
    | entry a v r => rfl
    | skip r =>
      rw [hst] at hs
      have hs : r.length < (t.dropWhile isSp).length := by rcases hs with hs | hs; · cases hs
                                                           · exact hs
      exact openEnd_fuel start _ _ (by omega) _ (Nat.lt_succ_self _)
    | badHeader r =>
      rw [hst] at hs
      have hs : r.length < (t.dropWhile isSp).length := by rcases hs with hs | hs; · cases hs
                                                           · exact hs
      exact openEnd_fuel start _ _ (by omega) _ (Nat.lt_succ_self _)

theorem findEvery_fuel (o : IniStore.Options) (copy : Bool) : ∀ (n : Nat) (t : Bytes), t.length < n → ∀ k, t.length < k → ∀ place c,
    IniStore.findEvery o copy n place c t = IniStore.findEvery o copy k place c t := by
  intro n
  induction n with
  | zero => intro t h; omega
  | succ n ih =>
    intro t hn k hk place c
    match k, hk with
    | k + 1, hk =>
      rw [IniStore.findEvery, IniStore.findEvery]
      have hd := length_dropWhile_le isSp t
      have hs := step_progress (t.dropWhile isSp)
      simp only
      split
      · rename_i hc
        have := comment_progress hc
        exact ih _ (by omega) k (by omega) _ _
      · cases hst : step (t.dropWhile isSp) with
        | done => rfl
        | skip r =>
          rw [hst] at hs
          have hs : r.length < (t.dropWhile isSp).length := by rcases hs with hs | hs; · cases hs
                                                               · exact hs
          exact ih _ (by omega) k (by omega) _ _
        | badHeader r =>
          rw [hst] at hs
          have hs : r.length < (t.dropWhile isSp).length := by rcases hs with hs | hs; · cases hs
                                                               · exact hs
          exact ih _ (by omega) k (by omega) _ _
        | header a r =>
          rw [hst] at hs
          have hs : r.length < (t.dropWhile isSp).length := by rcases hs with hs | hs; · cases hs
                                                               · exact hs
          simp only
          rw [ih _ (by omega) k (by omega)]
        | entry a v r =>
          rw [hst] at hs
          have hs : r.length < (t.dropWhile isSp).length := by rcases hs with hs | hs; · cases hs
                                                               · exact hs
          simp only
          split
          · cases ht : IniStore.taggedText (v.drop 3) (r.length + 1) [] r with
            | none => rfl
            | some p =>
              have := IniStore.taggedText_length _ _ _ _ _ ht
              obtain ⟨_ | w, r'⟩ := p
              · simp only at this ⊢
                rw [ih _ (by omega) k (by omega)]
              · simp only at this ⊢
                rw [ih _ (by omega) k (by omega)]
          · rw [ih _ (by omega) k (by omega)]

/-- All that is found in a text. -/
def every (o : IniStore.Options) (copy : Bool) (place : IniStore.Place) (c : Option Bytes) (t : Bytes) : List IniStore.Found :=
  IniStore.findEvery o copy (t.length + 1) place c t

theorem every_eq (o : IniStore.Options) (copy : Bool) (place : IniStore.Place) (c : Option Bytes) (t : Bytes) : every o copy place c t =
    if startsComment (t.dropWhile isSp) then
      every o copy (.named (place.name (t.dropWhile isSp) (IniStore.commentText true (t.dropWhile isSp).length [] (t.dropWhile isSp)).1))
        (some (IniStore.commentText true (t.dropWhile isSp).length [] (t.dropWhile isSp)).1)
        (IniStore.commentText true (t.dropWhile isSp).length [] (t.dropWhile isSp)).2
    else match step t with
      | .done => []
      | .skip r => every o copy place c r
      | .badHeader r => every o copy (.broken ((t.dropWhile isSp).tail.dropWhile isSp)) c r
      | .header n r => ⟨n, none, c⟩ :: every o copy (.named n) none r
      | .entry k v r =>
        if o.multiLine && (v.take 3 == b!"<<<") then
          match IniStore.taggedText (v.drop 3) (r.length + 1) [] r with
          | none => []
          | some (none, r') => ⟨place.name (t.dropWhile isSp) k, some (k, if copy then r else ends r r'), c⟩
              :: every o copy (.named (place.name (t.dropWhile isSp) k)) none r'
          | some (some v, r') => ⟨place.name (t.dropWhile isSp) k, some (k, v), c⟩ :: every o copy (.named (place.name (t.dropWhile isSp) k)) none r'
        else ⟨place.name (t.dropWhile isSp) k, some (k, v), c⟩ :: every o copy (.named (place.name (t.dropWhile isSp) k)) none r := by
  rw [every, IniStore.findEvery]
  have hd := length_dropWhile_le isSp t
  have hs := step_progress (t.dropWhile isSp)
  rw [step_dropSpace] at hs ⊢
  simp only
  split
  · rename_i hc
    have := comment_progress hc
    exact findEvery_fuel o copy _ _ (by omega) _ (Nat.lt_succ_self _) _ _
  · cases hst : step t with
    | done => rfl
    | skip r =>
      rw [hst] at hs
      have hs : r.length < (t.dropWhile isSp).length := by rcases hs with hs | hs; · cases hs
                                                           · exact hs
      exact findEvery_fuel o copy _ _ (by omega) _ (Nat.lt_succ_self _) _ _
    | badHeader r =>
      rw [hst] at hs
      have hs : r.length < (t.dropWhile isSp).length := by rcases hs with hs | hs; · cases hs
                                                           · exact hs
      exact findEvery_fuel o copy _ _ (by omega) _ (Nat.lt_succ_self _) _ _
    | header a r =>
      rw [hst] at hs
      have hs : r.length < (t.dropWhile isSp).length := by rcases hs with hs | hs; · cases hs
                                                           · exact hs
      simp only
      rw [findEvery_fuel o copy _ r (by omega) _ (Nat.lt_succ_self _)]
      rfl
    | entry a v r =>
      rw [hst] at hs
      have hs : r.length < (t.dropWhile isSp).length := by rcases hs with hs | hs; · cases hs
                                                           · exact hs
      simp only
      split
      · cases ht : IniStore.taggedText (v.drop 3) (r.length + 1) [] r with
        | none => rfl
        | some p =>
          have := IniStore.taggedText_length _ _ _ _ _ ht
          obtain ⟨_ | w, r'⟩ := p
          · simp only at this ⊢
            rw [findEvery_fuel o copy _ r' (by omega) _ (Nat.lt_succ_self _)]
            rfl
          · simp only at this ⊢
            rw [findEvery_fuel o copy _ r' (by omega) _ (Nat.lt_succ_self _)]
            rfl
      · rw [findEvery_fuel o copy _ r (by omega) _ (Nat.lt_succ_self _)]
        rfl

/-! ## FindEntry -/

/-- A string without an end of its own: it began at `s`, its text is `start`, and what remains of the text, `r`, stands at `p`. -/
def Open (m : Bytes) (p : Nat) (r : Bytes) (s : Nat) (start : Bytes) : Prop := ∃ pre, start = pre ++ r ∧ s + pre.length = p ∧ Seg m s pre ∧ 0 ∉ pre

theorem Open.go {m : Bytes} {p q s : Nat} {r r' start : Bytes} (h : Open m p r s start) (h1 : At m p r) (h2 : At m q r') (h3 : p ≤ q) (h4 : q ≤ p + r.length) :
    Open m q r' s start := by
  obtain ⟨pre, e1, e2, e3, e4⟩ := h
  obtain ⟨x, f1, f2, f3, f4⟩ := at_rest h1 h2 h3 h4
  refine ⟨pre ++ x, by rw [e1, f1]; simp, by simp only [List.length_append]; omega, seg_append.mpr ⟨e3, by rw [e2]; exact f3⟩, by simp [e4, f4]⟩

/-- A string `k` that is ended at `x` ends it too. -/
theorem Open.close {m m' : Bytes} {p x s b : Nat} {r t k start : Bytes} (h : Open m p r s start) (h1 : At m p r) (h2 : At m x t) (h3 : p ≤ x) (h4 : x ≤ p + r.length)
    (h5 : Same m m' x) (h6 : StrIs m' b x k) : StrIs m' b s (start.take (start.length - t.length) ++ k) := by
  obtain ⟨pre, e1, e2, e3, e4⟩ := h.go h1 h2 h3 h4
  obtain ⟨k1, k2, k3⟩ := h6
  have : start.take (start.length - t.length) = pre := by
    rw [e1, List.length_append, show pre.length + t.length - t.length = pre.length by omega, List.take_left']
    rfl
  rw [this]
  refine ⟨by simp [e4, k1], ?_, by simp only [List.length_append]; omega⟩
  rw [List.append_assoc, seg_append]
  exact ⟨seg_same h5 e3 (by omega), by rw [e2]; exact k2⟩

/-- The current section. -/
def SectP (m : Bytes) (b : Nat) (sect : Option Nat) (n : Bytes) : Prop := (sect = none ∧ n = []) ∨ ∃ s, sect = some s ∧ StrIs m b s n

def CurP (m : Bytes) (p : Nat) (r : Bytes) (b : Nat) (sect : Option Nat) : IniStore.Place → Prop
  | .named n => SectP m b sect n
  | .broken start => ∃ s, sect = some s ∧ Open m p r s start

/-- The comment. -/
def ComP (m : Bytes) (b : Nat) (cp : Option Nat) (c : Option Bytes) : Prop := (cp = none ∧ c = none) ∨ ∃ s t, cp = some s ∧ c = some t ∧ StrIs m b s t

theorem SectP.keeps {m m' : Bytes} {b b' : Nat} {sect : Option Nat} {n : Bytes} (h : SectP m b sect n) (hk : Keeps m m' b) (hb : b ≤ b') : SectP m' b' sect n :=
  h.imp id fun ⟨s, h1, h2⟩ => ⟨s, h1, (StrIs.keeps h2 hk).mono hb⟩

theorem ComP.keeps {m m' : Bytes} {b b' : Nat} {cp : Option Nat} {c : Option Bytes} (h : ComP m b cp c) (hk : Keeps m m' b) (hb : b ≤ b') : ComP m' b' cp c :=
  h.imp id fun ⟨s, t, h1, h2, h3⟩ => ⟨s, t, h1, h2, (StrIs.keeps h3 hk).mono hb⟩

/-- A string `k` that is ended at `x` leaves the current section with the name `Place.name`. -/
theorem CurP.close {m m' : Bytes} {p x b b' : Nat} {r t k : Bytes} {sect : Option Nat} {place : IniStore.Place} (h : CurP m p r b sect place) (h1 : At m p r)
    (h2 : At m x t) (h3 : p ≤ x) (h4 : x ≤ p + r.length) (h5 : Same m m' x) (h6 : StrIs m' b' x k) (hb : b ≤ p) (hb' : b ≤ b') :
    SectP m' b' sect (place.name t k) := by
  cases place with
  | named n => exact SectP.keeps h (.of_same (h5.mono (by omega))) hb'
  | broken start =>
    obtain ⟨s, e1, e2⟩ := h
    exact .inr ⟨s, e1, e2.close h1 h2 h3 h4 h5 h6⟩

/-- What `FindEntry` has found. -/
def EntryP (o : IniStore.Options) (f : Result) (b : Nat) (r : Bytes) (n : Bytes) (c : Option Bytes) (all : Bool → List IniStore.Found) : Prop :=
  (f.entry.keyVal = none ∧ ∀ copy, all copy = ⟨n, none, c⟩ :: every o copy (.named n) none r)
    ∨ ∃ kp vp k, f.entry.keyVal = some (kp, vp) ∧ StrIs f.mem b kp k
      ∧ ((∃ v, StrIs f.mem b vp v ∧ ∀ copy, all copy = ⟨n, some (k, v), c⟩ :: every o copy (.named n) none r)
        ∨ ∃ start, At f.mem vp start ∧ Open f.mem f.data r vp start
          ∧ ∀ copy, all copy = ⟨n, some (k, if copy then start else ends start r), c⟩ :: every o copy (.named n) none r)

/-- The outcome of `FindEntry` from a state. -/
def FindP (o : IniStore.Options) (m : Bytes) (p : Nat) (r : Bytes) (b : Nat) (all : Bool → List IniStore.Found) (f : Result) : Prop :=
  Keeps m f.mem b ∧
  ((f.found = false ∧ (∀ copy, all copy = []) ∧ ∀ s start, Open m p r s start → StrIs f.mem f.mem.length s (ends start r))
    ∨ (f.found = true ∧ ∃ b2 r2 n c2, b ≤ b2 ∧ At f.mem f.data r2 ∧ (r2 = [] ∨ b2 ≤ f.data) ∧ r2.length < r.length
      ∧ SectP f.mem b2 f.entry.sect n ∧ ComP f.mem b2 f.entry.comment c2 ∧ (∀ s start, Open m p r s start → StrIs f.mem b2 s (ends start r))
      ∧ EntryP o f b2 r2 n c2 all))

theorem roundOf_round (o : IniStore.Options) {m : Bytes} {p : Nat} {r : Bytes} (h : At m p r) {c : UInt8} {z : Bytes} (hr : r.dropWhile isSp = c :: z)
    (hc : isComment c = false) (sect cp : Option Nat) {x : Round} (hx : IniMem.round m p sect = .ok x) : roundOf o m p sect cp = after o cp x := by
  obtain ⟨x1, y1, hxy, hx1, hy1, _, hstop, e1, e2, e3, e4⟩ := scan_split (cond := isSp) h
  rw [hr] at hy1
  subst hy1
  obtain ⟨g1, g2, g3⟩ := e4.cons
  unfold IniMem.round at hx
  unfold roundOf
  rw [e1, Outcome.ok_bind, g1, Outcome.ok_bind, if_neg g2, if_neg (by simp [hc])] at hx ⊢
  by_cases h91 : c = 91
  · rw [if_pos h91] at hx ⊢
    rw [hx, Outcome.ok_bind]
  · rw [if_neg h91] at hx ⊢
    rw [hx, Outcome.ok_bind]

/-- Another round: what was open is ended, or still open. -/
theorem FindP.again {o : IniStore.Options} {m m' : Bytes} {p q : Nat} {r r' : Bytes} {b b' : Nat} {all all' : Bool → List IniStore.Found} {f : Result}
    (h : FindP o m' q r' b' all' f) (hk : Keeps m m' b) (hb : b ≤ b') (hl : r'.length ≤ r.length) (hall : ∀ copy, all copy = all' copy)
    (hopen : (∀ s start, Open m p r s start → StrIs m' b' s (ends start r))
      ∨ (∀ s start, Open m p r s start → Open m' q r' s start ∧ ends start r = ends start r')) : FindP o m p r b all f := by
  obtain ⟨h1, h2⟩ := h
  refine ⟨hk.trans (h1.mono hb), ?_⟩
  rcases h2 with ⟨h2, h3, h4⟩ | ⟨h2, b2, r2, n, c2, g1, g2, g3, g4, g5, g6, g7, g8⟩
  · refine .inl ⟨h2, fun copy => (hall copy).trans (h3 copy), fun s start hs => ?_⟩
    rcases hopen with ho | ho
    · exact strIs_bound (StrIs.keeps (ho s start hs) h1)
    · rw [(ho s start hs).2]; exact h4 s start (ho s start hs).1
  · refine .inr ⟨h2, b2, r2, n, c2, by omega, g2, g3, by omega, g5, g6, fun s start hs => ?_, ?_⟩
    · rcases hopen with ho | ho
      · exact (StrIs.keeps (ho s start hs) h1).mono g1
      · rw [(ho s start hs).2]; exact g7 s start (ho s start hs).1
    · unfold EntryP at g8 ⊢
      simp only [hall]
      exact g8

theorem lastRound_ok (o : IniStore.Options) (m : Bytes) (p : Nat) (sect : Option Nat) (k v : Nat) (cp : Option Nat) {x : Bool} (h : isTag m v = .ok x) :
    lastRound o m p sect k v cp = if o.multiLine && x then (do
        let r ← loadTagged m p (v + 3)
        .ok (.stop ⟨r.1, r.2.1, r.2.2, ⟨sect, some (k, p), cp⟩⟩))
      else .ok (.stop ⟨m, p, true, ⟨sect, some (k, v), cp⟩⟩) := by
  unfold lastRound
  cases o.multiLine with
  | false => rfl
  | true => simp only [h, if_true, Outcome.ok_bind, Bool.true_and]

theorem findEntry_text (o : IniStore.Options) : ∀ (fuel : Nat) (m : Bytes) (p : Nat) (r : Bytes) (b : Nat) (sect : Option Nat) (place : IniStore.Place)
    (cp : Option Nat) (c : Option Bytes), At m p r → CurP m p r b sect place → ComP m b cp c → (r = [] ∨ b ≤ p) → r.length < fuel →
    ∃ f, findEntry o fuel m p sect cp = .ok f ∧ FindP o m p r b (fun copy => every o copy place c r) f := by
  intro fuel
  induction fuel with
  | zero => intro m p r b sect place cp c _ _ _ _ h; omega
  | succ fuel ih =>
    intro m p r b sect place cp c h hcur hcom hb hf
    rw [findEntry]
    obtain ⟨x, y, hxy, hx, hy, _, hstop, e1, e2, e3, e4⟩ := scan_split (cond := isSp) h
    have hlen : r.length = x.length + y.length := by rw [← List.length_append, ← hxy]
    cases hr : r.dropWhile isSp with
    | nil =>
      rw [hr] at hy
      subst hy
      have hround : roundOf o m p sect cp = .ok (.stop ⟨m, p + x.length, false, ⟨sect, none, cp⟩⟩) := by
        unfold roundOf
        rw [e1, Outcome.ok_bind, e4.nil, Outcome.ok_bind, if_pos rfl]
      have hst : step r = .done := by rw [← step_dropSpace, hr]; rfl
      rw [hround, Outcome.ok_bind]
      refine ⟨_, rfl, Keeps.refl m b, .inl ⟨rfl, fun copy => ?_, fun s start hs => ?_⟩⟩
      · simp only
        rw [every_eq, hr, hst]; rfl
      · rw [ends_eq, hr, hst]
        obtain ⟨pre, f1, f2, f3, f4⟩ := hs
        show StrIs m m.length s start
        refine strIs_of_at ⟨by rw [f1]; simp [f4, h.1], ?_⟩
        show Seg m s (start ++ [0])
        rw [f1, List.append_assoc, seg_append]
        exact ⟨f3, by rw [f2]; exact h.2⟩
    | cons c0 z =>
      rw [hr] at hy
      subst hy
      have hne : r ≠ [] := by rintro rfl; simp at hr
      have hbp : b ≤ p := hb.resolve_left hne
      obtain ⟨g1, g2, g3⟩ := e4.cons
      cases hc : isComment c0 with
      | true =>
        have hsc : startsComment (c0 :: z) = true := hc
        obtain ⟨m', q, b', a1, a2, a3, a4, a5, a6⟩ := loadComment_text true e4 hsc
        have hround : roundOf o m p sect cp = .ok (.again m' q sect (some (p + x.length))) := by
          unfold roundOf
          rw [e1, Outcome.ok_bind, g1, Outcome.ok_bind, if_neg g2, if_pos hc, a1, Outcome.ok_bind]
        rw [hround, Outcome.ok_bind]
        have hlt := comment_progress hsc
        have hk : Keeps m m' b := .of_same (a3.mono (by omega))
        have a5' := a5.mono (Nat.le_max_right b b')
        obtain ⟨f, f1, f2⟩ := ih m' q _ (max b b') sect
          (.named (place.name (c0 :: z) (IniStore.commentText true (c0 :: z).length [] (c0 :: z)).1)) (some (p + x.length))
          (some (IniStore.commentText true (c0 :: z).length [] (c0 :: z)).1) a2
          (hcur.close h e4 (by omega) (by omega) a3 a5' hbp (Nat.le_max_left _ _))
          (.inr ⟨_, _, rfl, rfl, a5'⟩) (a6.imp id fun h => by omega) (by omega)
        refine ⟨f, f1, f2.again hk (Nat.le_max_left _ _) (by omega) (fun copy => ?_) (.inl fun s start hs => ?_)⟩
        · rw [every_eq, hr, if_pos hsc]
        · rw [ends_eq, hr, if_pos hsc]
          exact hs.close h e4 (by omega) (by omega) a3 a5'
      | false =>
        have hsc : startsComment (c0 :: z) = false := hc
        by_cases h91 : c0 = 91
        · subst h91
          rcases round_section h hr sect with ⟨s, name, r2, a1, a2, a3, a4, a5, a6, a7, a8, a9, a10⟩
              | ⟨m', q, s, n, r2, a1, a2, a3, a4, a5, a6, a7, a8, a9, a10, a11, a12⟩
          · rw [roundOf_round o h hr hc sect cp a2]
            simp only [after, Outcome.ok_bind]
            rw [← hx] at a8
            have ho : Open m (s + name.length) r2 s (z.dropWhile isSp) := by
              obtain ⟨w, w1, w2, w3, w4⟩ := at_rest h a9 (by omega) (by omega)
              have hl : r.length = w.length + (z.dropWhile isSp).length := by rw [← List.length_append, ← w1]
              obtain ⟨v, v1, v2, v3, v4⟩ := at_rest a9 a3 (by omega) (by omega)
              exact ⟨v, v1, by omega, v3, v4⟩
            obtain ⟨f, f1, f2⟩ := ih m (s + name.length) r2 b (some s) (.broken (z.dropWhile isSp)) cp c a3 ⟨s, rfl, ho⟩ hcom (.inr (by omega)) (by omega)
            refine ⟨f, f1, f2.again (Keeps.refl _ _) (Nat.le_refl _) (by omega) (fun copy => ?_) (.inr fun s' start hs => ⟨?_, ?_⟩)⟩
            · rw [every_eq, hr, hsc, if_neg Bool.false_ne_true, a1]
              rfl
            · exact hs.go h a3 (by omega) a10
            · rw [ends_eq, hr, hsc, if_neg Bool.false_ne_true, a1]
          · rw [roundOf_round o h hr hc sect cp a2]
            simp only [after, Outcome.ok_bind]
            rw [← hx] at a8 a11
            have hk : Keeps m m' b := .of_same (a10.mono (by omega))
            refine ⟨_, rfl, hk, .inr ⟨rfl, q, r2, n, c, by omega, a3, .inr (Nat.le_refl _), a7, .inr ⟨s, rfl, a4⟩, hcom.keeps hk (by omega),
              fun s' start hs => ?_, .inl ⟨rfl, fun copy => ?_⟩⟩⟩
            · rw [ends_eq, hr, hsc, if_neg Bool.false_ne_true, a1]
              exact hs.close h a9 (by omega) (by omega) a10 a4
            · show every o copy place c r = _
              rw [every_eq o copy place c r, hr, hsc, if_neg Bool.false_ne_true, a1]
        · rcases round_key h hr hc h91 sect with ⟨q, r2, a1, a2, a3, a4, a5, a6⟩
              | ⟨m', q, b', kp, vp, k, v, r2, a1, a2, a3, a4, a5, a6, a7, a8, a9, a10⟩
          · rw [roundOf_round o h hr hc sect cp a2]
            simp only [after, Outcome.ok_bind]
            have hcur2 : CurP m q r2 b sect place := by
              cases place with
              | named n => exact hcur
              | broken start => exact hcur.imp fun s hs => ⟨hs.1, hs.2.go h a3 (by omega) a6⟩
            obtain ⟨f, f1, f2⟩ := ih m q r2 b sect place cp c a3 hcur2 hcom (.inr (by omega)) (by omega)
            refine ⟨f, f1, f2.again (Keeps.refl _ _) (Nat.le_refl _) (by omega) (fun copy => ?_) (.inr fun s' start hs => ⟨?_, ?_⟩)⟩
            · rw [every_eq, hr, hsc, if_neg Bool.false_ne_true, a1]
            · exact hs.go h a3 (by omega) a6
            · rw [ends_eq, hr, hsc, if_neg Bool.false_ne_true, a1]
          · rw [roundOf_round o h hr hc sect cp a2]
            simp only [after]
            rw [← hx] at a7 a9 a10
            have hsame : Same m m' kp := by rw [← a9]; exact a7
            have he : At m kp (c0 :: z) := by rw [← a9]; exact e4
            have hk : Keeps m m' b := .of_same (hsame.mono (by omega))
            have hB : r2 = [] ∨ max b b' ≤ q := a6.imp id fun h => by omega
            have k4 := a4.mono (Nat.le_max_right b b')
            have k5 := a5.mono (Nat.le_max_right b b')
            have hsect : SectP m' (max b b') sect (place.name (c0 :: z) k) := hcur.close h he (by omega) (by omega) hsame k4 hbp (Nat.le_max_left _ _)
            have hcm : ComP m' (max b b') cp c := hcom.keeps hk (Nat.le_max_left _ _)
            have hop : ∀ s start, Open m p r s start → StrIs m' (max b b') s (ends start r) := by
              intro s start hs
              rw [ends_eq, hr, hsc, if_neg Bool.false_ne_true, a1]
              exact hs.close h he (by omega) (by omega) hsame k4
            have hev : ∀ copy, every o copy place c r = _ := fun copy => by
              rw [every_eq, hr, hsc, if_neg Bool.false_ne_true, a1]
            simp only at hev
            clear ih hcur hcom
            obtain ⟨t1, t2⟩ := isTag_ok k5
            rw [lastRound_ok o m' q sect kp vp cp t1]
            cases htag : o.multiLine && (v.take 3 == b!"<<<") with
            | false =>
              simp only [htag] at hev
              simp only [Outcome.ok_bind, Bool.false_eq_true, if_false]
              exact ⟨_, rfl, hk, .inr ⟨rfl, max b b', r2, _, c, Nat.le_max_left _ _, a3, hB, a8, hsect, hcm, hop, .inr ⟨kp, vp, k, rfl, k4, .inl ⟨v, k5, hev⟩⟩⟩⟩
            | true =>
              simp only [htag] at hev
              simp only [if_true] at hev ⊢
              have ht := t2 (by simp at htag; simp [htag.2])
              by_cases hr2 : r2 = []
              · subst hr2
                rw [loadTagged_nil a3 ht]
                simp only [Outcome.ok_bind]
                cases hsn : sameName [] (v.drop 3) with
                | true =>
                  refine ⟨_, rfl, hk, .inl ⟨rfl, fun copy => ?_, fun s start hs => strIs_bound (hop s start hs)⟩⟩
                  simp only
                  rw [hev]
                  simp [IniStore.taggedText, hsn]
                | false =>
                  refine ⟨_, rfl, hk, .inr ⟨rfl, max (max b b') m'.length, [], _, c, by omega, a3, .inl rfl, a8, hsect.keeps (Keeps.refl _ _) (by omega),
                    hcm.keeps (Keeps.refl _ _) (by omega), fun s start hs => (hop s start hs).mono (by omega),
                    .inr ⟨kp, q, k, rfl, k4.mono (by omega), .inl ⟨[], (strIs_of_at a3).mono (by omega), fun copy => ?_⟩⟩⟩⟩
                  simp only
                  rw [hev]
                  simp [IniStore.taggedText, hsn]
              · have hq := hB.resolve_left hr2
                have hkp := a4.2.2
                obtain ⟨m2, q2, bb, l1, l2, l3⟩ := loadTagged_text a3 ht (.inl hq) (by omega)
                rw [l1]
                simp only [Outcome.ok_bind]
                have hk2 : Keeps m m2 b := hk.trans (l2.mono (by omega))
                have hkB := l2.mono hq
                have hop2 : ∀ s start, Open m p r s start → StrIs m2 (max b b') s (ends start r) := fun s start hs => StrIs.keeps (hop s start hs) hkB
                cases htx : IniStore.taggedText (v.drop 3) (r2.length + 1) [] r2 with
                | none =>
                  rw [htx] at l3
                  simp only [htx] at hev
                  refine ⟨_, rfl, hk2, .inl ⟨l3, hev, fun s start hs => strIs_bound (hop2 s start hs)⟩⟩
                | some pr =>
                  have hle := IniStore.taggedText_length _ _ _ _ _ htx
                  rw [htx] at l3
                  simp only [htx] at hev
                  obtain ⟨_ | w, r'⟩ := pr
                  · obtain ⟨d1, d2, d3, _, d5, d6⟩ := l3
                    simp only at hev hle
                    refine ⟨_, rfl, hk2, .inr ⟨d1, q, r', _, c, by omega, d2, .inr d5, by omega, hsect.keeps hkB hq, hcm.keeps hkB hq,
                      fun s start hs => (hop2 s start hs).mono hq, .inr ⟨kp, q, k, rfl, (StrIs.keeps k4 hkB).mono hq, .inr ⟨r2, d3, ?_, hev⟩⟩⟩⟩
                    exact Open.go ⟨[], rfl, rfl, seg_nil _ _, by simp⟩ d3 d2 d5 d6
                  · obtain ⟨d1, d2, d3, d4, d5⟩ := l3
                    simp only at hev hle
                    have hlt := d2.lt
                    by_cases hr' : r' = []
                    · refine ⟨_, rfl, hk2, .inr ⟨d1, max (max b b') m2.length, r', _, c, by omega, d2, .inl hr', by omega, hsect.keeps hkB (by omega),
                        hcm.keeps hkB (by omega), fun s start hs => (hop2 s start hs).mono (by omega),
                        .inr ⟨kp, q, k, rfl, (StrIs.keeps k4 hkB).mono (by omega), .inl ⟨w, d3.mono (by omega), hev⟩⟩⟩⟩
                    · have d4 := d4.resolve_left hr'
                      refine ⟨_, rfl, hk2, .inr ⟨d1, q2, r', _, c, by omega, d2, .inr (Nat.le_refl _), by omega, hsect.keeps hkB (by omega),
                        hcm.keeps hkB (by omega), fun s start hs => (hop2 s start hs).mono (by omega),
                        .inr ⟨kp, q, k, rfl, (StrIs.keeps k4 hkB).mono (by omega), .inl ⟨w, ⟨d3.1, d3.2.1, d4⟩, hev⟩⟩⟩⟩

/-! ## LoadData -/

theorem cstrOpt_sect {m : Bytes} {b : Nat} {sect : Option Nat} {n : Bytes} (h : SectP m b sect n) : ∃ x, cstrOpt m sect = .ok x ∧ x.getD [] = n := by
  rcases h with ⟨rfl, rfl⟩ | ⟨s, rfl, h⟩
  · exact ⟨none, rfl, rfl⟩
  · refine ⟨some n, ?_, rfl⟩
    rw [cstrOpt, StrIs.cstr h]; rfl

theorem cstrOpt_com {m : Bytes} {b : Nat} {cp : Option Nat} {c : Option Bytes} (h : ComP m b cp c) : cstrOpt m cp = .ok c := by
  rcases h with ⟨rfl, rfl⟩ | ⟨s, t, rfl, rfl, h⟩
  · rfl
  · rw [cstrOpt, StrIs.cstr h]; rfl

theorem strings_none {m : Bytes} {b : Nat} {sect cp : Option Nat} {n : Bytes} {c : Option Bytes} (h1 : SectP m b sect n) (h2 : ComP m b cp c) :
    strings m ⟨sect, none, cp⟩ = .ok ⟨n, none, c⟩ := by
  obtain ⟨x, h3, h4⟩ := cstrOpt_sect h1
  unfold strings
  rw [h3, Outcome.ok_bind, cstrOpt_com h2, Outcome.ok_bind, h4]

theorem strings_some {m : Bytes} {b b1 b2 : Nat} {sect cp : Option Nat} {n k v : Bytes} {c : Option Bytes} {kp vp : Nat} (h1 : SectP m b sect n) (h2 : ComP m b cp c)
    (h3 : StrIs m b1 kp k) (h4 : StrIs m b2 vp v) : strings m ⟨sect, some (kp, vp), cp⟩ = .ok ⟨n, some (k, v), c⟩ := by
  obtain ⟨x, h5, h6⟩ := cstrOpt_sect h1
  unfold strings
  rw [h5, Outcome.ok_bind, cstrOpt_com h2, Outcome.ok_bind]
  simp only
  rw [StrIs.cstr h3, Outcome.ok_bind, StrIs.cstr h4, Outcome.ok_bind, h6]

theorem parseLoop_text (o : IniStore.Options) : ∀ (fuel : Nat) (m : Bytes) (p : Nat) (r : Bytes) (b : Nat) (sect : Option Nat) (n : Bytes),
    At m p r → SectP m b sect n → (r = [] ∨ b ≤ p) → r.length < fuel →
    ∃ m' l, parseLoop o fuel m p sect = .ok (m', l) ∧ Keeps m m' b ∧ l.map (·.2) = every o true (.named n) none r
      ∧ l.map (fun e => strings m' e.1) = (every o false (.named n) none r).map .ok
      ∧ ∀ s start, Open m p r s start → StrIs m' m'.length s (ends start r) := by
  intro fuel
  induction fuel with
  | zero => intro m p r b sect n _ _ _ h; omega
  | succ fuel ih =>
    intro m p r b sect n h hs hb hf
    have hlt := h.lt
    obtain ⟨f, f1, f2, f3⟩ := findEntry_text o (m.length + 1) m p r b sect (.named n) none none h hs (.inl ⟨rfl, rfl⟩) hb (by omega)
    rw [parseLoop, f1, Outcome.ok_bind]
    rcases f3 with ⟨g1, g2, g3⟩ | ⟨g0, b2, r2, n2, c2, g1, g2, g3, g4, g5, g6, g7, g8⟩
    · rw [g1, if_neg Bool.false_ne_true]
      exact ⟨f.mem, [], rfl, f2, (g2 true).symm, by rw [show every o false (.named n) none r = [] from g2 false]; rfl, g3⟩
    · rw [g0, if_pos rfl]
      obtain ⟨m', l, i1, i2, i3, i4, i5⟩ := ih f.mem f.data r2 b2 f.entry.sect n2 g2 g5 g3 (by omega)
      have hfin : ∃ s0, strings f.mem f.entry = .ok s0 ∧ every o true (.named n) none r = s0 :: every o true (.named n2) none r2
          ∧ ∃ s1, strings m' f.entry = .ok s1 ∧ every o false (.named n) none r = s1 :: every o false (.named n2) none r2 := by
        obtain ⟨fm, fd, ff, ⟨fs, fk, fc⟩⟩ := f
        have g5' := g5.keeps i2 (Nat.le_refl _)
        have g6' := g6.keeps i2 (Nat.le_refl _)
        rcases g8 with ⟨e1, e2⟩ | ⟨kp, vp, k, e1, e2, ⟨v, e3, e4⟩ | ⟨start, e3, e4, e5⟩⟩
        · simp only at e1
          subst e1
          exact ⟨_, strings_none g5 g6, e2 true, _, strings_none g5' g6', e2 false⟩
        · simp only at e1
          subst e1
          exact ⟨_, strings_some g5 g6 e2 e3, e4 true, _, strings_some g5' g6' (StrIs.keeps e2 i2) (StrIs.keeps e3 i2), e4 false⟩
        · simp only at e1
          subst e1
          exact ⟨_, strings_some g5 g6 e2 (strIs_of_at e3), e5 true, _, strings_some g5' g6' (StrIs.keeps e2 i2) (i5 vp start e4), e5 false⟩
      obtain ⟨s0, j1, j2, s1, j3, j4⟩ := hfin
      rw [j1, Outcome.ok_bind, i1, Outcome.ok_bind]
      refine ⟨m', _, rfl, f2.trans (i2.mono g1), by rw [j2, ← i3]; rfl, by rw [j4, List.map_cons, List.map_cons, i4, j3], fun s start ho => ?_⟩
      exact strIs_bound (StrIs.keeps (g7 s start ho) i2)

end Licensecc.IniParse
