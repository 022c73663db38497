import Verif.Model.IniHeap
import Verif.Lemmas.IniStore
/-!
# Lemmas about the memory of INI objects
-/
namespace Licensecc.IniHeap
open Ini hiding getValue setKey load
open IniStore (Options insertBy SortedS SortedW)
open IniMem (less)

/-! ## Memory -/

/-- The number of a copied string. -/
def Ptr.id? : Ptr → Option Nat
  | .own n => some n
  | _ => none

/-- The numbers of the copied strings among some strings. -/
def ids (l : List Ptr) : List Nat := l.filterMap Ptr.id?

theorem mem_ids {n : Nat} {l : List Ptr} : n ∈ ids l ↔ Ptr.own n ∈ l := by
  unfold ids
  rw [List.mem_filterMap]
  constructor
  · rintro ⟨p, hp, h⟩
    cases p <;> simp [Ptr.id?] at h
    subst h; exact hp
  · intro h; exact ⟨_, h, rfl⟩

theorem ids_append (a b : List Ptr) : ids (a ++ b) = ids a ++ ids b := by unfold ids; simp

theorem ids_cons (a : Ptr) (b : List Ptr) : ids (a :: b) = ids [a] ++ ids b := by
  rw [← ids_append]; rfl

theorem ids_perm {a b : List Ptr} (h : a.Perm b) : (ids a).Perm (ids b) := h.filterMap _

theorem ids_sublist {a b : List Ptr} (h : a.Sublist b) : (ids a).Sublist (ids b) := h.filterMap _

/-- What holds of memory: every copied string is in `m_strings`, once. -/
structure MemOk (m : Mem) : Prop where
  strings : m.strings = m.heap.map (·.1)
  nodup : m.strings.Nodup
  bound : ∀ n ∈ m.strings, n < m.next
  blocks : m.blocks.Nodup
  blockBound : ∀ b ∈ m.blocks, b < m.next

/-- The memory changes, but nothing that was allocated except `D`. -/
structure Frame (D : List Nat) (m m' : Mem) : Prop where
  text : ∀ p t, m.text p = some t → (∀ n ∈ D, p ≠ .own n) → m'.text p = some t
  next : m.next ≤ m'.next
  blocks : m'.blocks = m.blocks
  data : m'.data = m.data
  /-- nothing comes back -/
  back : ∀ p t, m'.text p = some t → (∀ i, p = .own i → i < m.next) → m.text p = some t

theorem Frame.refl (D : List Nat) (m : Mem) : Frame D m m := ⟨fun _ _ h _ => h, Nat.le_refl _, rfl, rfl, fun _ _ h _ => h⟩

theorem Frame.trans {D E : List Nat} {a b c : Mem} (h : Frame D a b) (h' : Frame E b c) : Frame (D ++ E) a c :=
  ⟨fun p t hp hD => h'.text p t (h.text p t hp fun n hn => hD n (by simp [hn])) fun n hn => hD n (by simp [hn]),
   Nat.le_trans h.next h'.next, h'.blocks.trans h.blocks, h'.data.trans h.data,
   fun p t hp hi => h.back p t (h'.back p t hp fun i e => Nat.lt_of_lt_of_le (hi i e) h.next) hi⟩

theorem Frame.mono {D E : List Nat} {a b : Mem} (h : Frame D a b) (hs : ∀ n ∈ D, n ∈ E) : Frame E a b :=
  ⟨fun p t hp hD => h.text p t hp fun n hn => hD n (hs n hn), h.next, h.blocks, h.data, h.back⟩

theorem text_own {m : Mem} (hm : MemOk m) {n : Nat} : (∃ t, m.text (.own n) = some t) ↔ n ∈ m.strings := by
  rw [hm.strings]
  unfold Mem.text
  constructor
  · rintro ⟨t, h⟩
    rw [Option.map_eq_some_iff] at h
    obtain ⟨e, he, _⟩ := h
    have h1 := List.mem_of_find?_eq_some he
    have h2 := List.find?_some he
    exact List.mem_map.mpr ⟨e, h1, by simpa using h2⟩
  · intro h
    obtain ⟨e, he, rfl⟩ := List.mem_map.mp h
    cases hf : m.heap.find? (fun x => x.1 == e.1) with
    | none => rw [List.find?_eq_none] at hf; exact absurd (by simp) (hf e he)
    | some x => exact ⟨x.2, by simp only [hf]; rfl⟩

theorem text_bound {m : Mem} (hm : MemOk m) {n : Nat} {t : Bytes} (h : m.text (.own n) = some t) : n < m.next :=
  hm.bound n ((text_own hm).mp ⟨t, h⟩)

/-- Releases of strings that were not there yet do not matter. -/
theorem Frame.old {D E : List Nat} {a b : Mem} (ha : MemOk a) (h : Frame D a b) (hs : ∀ n ∈ D, n < a.next → n ∈ E) : Frame E a b := by
  refine ⟨fun p t hp hD => h.text p t hp fun n hn => ?_, h.next, h.blocks, h.data, h.back⟩
  intro e
  subst e
  exact hD n (hs n hn (text_bound ha hp)) rfl

theorem read_ok {m : Mem} {p : Ptr} {t : Bytes} (h : m.text p = some t) : read m p = .ok t := by unfold read; rw [h]

/-- A string that the object may keep: not the caller's, allocated. -/
def Held (m : Mem) (p : Ptr) : Prop := (∀ t, p ≠ .caller t) ∧ ∃ t, m.text p = some t

theorem Held.frame {D : List Nat} {m m' : Mem} {p : Ptr} (h : Held m p) (hf : Frame D m m') (hD : ∀ n ∈ D, p ≠ .own n) : Held m' p :=
  ⟨h.1, h.2.imp fun t ht => hf.text p t ht hD⟩

/-- A string that was not there before. -/
def New (n : Nat) (p : Ptr) : Prop := ∀ k, p = .own k → n ≤ k

theorem copyString_ok {m : Mem} (hm : MemOk m) {p : Ptr} {t : Bytes} (h : m.text p = some t) :
    ∃ m', copyString m p = .ok (.own m.next, m') ∧ MemOk m' ∧ Frame [] m m' ∧ m'.text (.own m.next) = some t ∧ m'.next = m.next + 1
      ∧ m'.strings.length = m.strings.length + 1 := by
  refine ⟨{ m with heap := m.heap ++ [(m.next, t)], strings := m.strings ++ [m.next], next := m.next + 1 },
    by unfold copyString; rw [read_ok h]; rfl, ⟨?_, ?_, ?_, hm.blocks, ?_⟩, ⟨?_, by simp, rfl, rfl, ?_⟩, ?_, rfl, by simp⟩
  · simp [hm.strings]
  · simp only
    rw [List.nodup_append]
    refine ⟨hm.nodup, by simp, ?_⟩
    intro a ha b hb e
    simp only [List.mem_singleton] at hb
    have := hm.bound a ha
    omega
  · intro n hn
    rcases List.mem_append.mp hn with hn | hn
    · have := hm.bound n hn; simp; omega
    · simp at hn; simp; omega
  · intro b hb
    have := hm.blockBound b hb; simp; omega
  · intro q u hq _
    cases q with
    | caller t => exact hq
    | block b t => exact hq
    | own n =>
      unfold Mem.text at hq ⊢
      simp only [List.find?_append]
      rw [Option.map_eq_some_iff] at hq
      obtain ⟨e, he, rfl⟩ := hq
      rw [he]; rfl
  · intro q u hq hi
    cases q with
    | caller t => exact hq
    | block b t => exact hq
    | own n =>
      have hn := hi n rfl
      unfold Mem.text at hq ⊢
      simp only [List.find?_append] at hq
      have : [(m.next, t)].find? (fun e => e.1 == n) = none := by
        rw [List.find?_eq_none]; intro e he hh; simp at he; subst he; simp at hh; omega
      rw [this, Option.or_none] at hq
      exact hq
  · unfold Mem.text
    simp only [List.find?_append]
    have : m.heap.find? (fun e => e.1 == m.next) = none := by
      rw [List.find?_eq_none]
      intro e he hh
      have hb := hm.bound e.1 (by rw [hm.strings]; exact List.mem_map.mpr ⟨e, he, rfl⟩)
      simp at hh; omega
    rw [this]; simp

theorem deleteString_ok {m : Mem} (hm : MemOk m) (p : Ptr) :
    ∃ m', deleteString m p = .ok m' ∧ MemOk m' ∧ Frame (ids [p]) m m' ∧ m'.next = m.next ∧ (∀ n ∈ m'.strings, n ∈ m.strings)
      ∧ (∀ n ∈ ids [p], n ∉ m'.strings) := by
  cases p with
  | caller t => exact ⟨m, rfl, hm, Frame.refl _ _, rfl, fun _ h => h, by simp [ids, Ptr.id?]⟩
  | block b t => exact ⟨m, rfl, hm, Frame.refl _ _, rfl, fun _ h => h, by simp [ids, Ptr.id?]⟩
  | own n =>
    unfold deleteString
    simp only
    by_cases hn : n ∈ m.strings
    · rw [if_pos hn]
      have hn' : n ∈ m.heap.map (·.1) := hm.strings ▸ hn
      unfold release
      rw [if_pos hn']
      refine ⟨{ m with heap := m.heap.filter fun e => e.1 != n, strings := m.strings.erase n }, rfl, ⟨?_, hm.nodup.erase _, ?_, hm.blocks, hm.blockBound⟩, ⟨?_, Nat.le_refl _, rfl, rfl, ?_⟩, rfl, ?_, ?_⟩
      · simp only
        rw [hm.nodup.erase_eq_filter, hm.strings, List.filter_map]
        rfl
      · intro k hk
        exact hm.bound k (List.mem_of_mem_erase hk)
      · intro q u hq hD
        cases q with
        | caller t => exact hq
        | block b t => exact hq
        | own k =>
          have hk : k ≠ n := by intro e; exact hD n (by simp [ids, Ptr.id?]) (by rw [e])
          unfold Mem.text at hq ⊢
          rw [Option.map_eq_some_iff] at hq ⊢
          obtain ⟨e, he, rfl⟩ := hq
          refine ⟨e, ?_, rfl⟩
          simp only [List.find?_filter]
          rw [← he]
          congr 1
          funext a
          by_cases ha : a.1 = k
          · simp [ha, hk]
          · simp [ha]
      · intro q u hq _
        cases q with
        | caller t => exact hq
        | block b t => exact hq
        | own k =>
          unfold Mem.text at hq ⊢
          rw [Option.map_eq_some_iff] at hq ⊢
          obtain ⟨e, he, rfl⟩ := hq
          refine ⟨e, ?_, rfl⟩
          have h2 := List.find?_some he
          have h3 := List.mem_of_find?_eq_some he
          have hek : e.1 = k := by simpa using h2
          have hkn : k ≠ n := by
            have := (List.mem_filter.mp h3).2
            rw [hek] at this; simpa using this
          rw [← he]
          simp only [List.find?_filter]
          congr 1
          funext a
          by_cases ha : a.1 = k
          · simp [ha, hkn]
          · simp [ha]
      · intro k hk; exact List.mem_of_mem_erase hk
      · intro k hk
        simp [ids, Ptr.id?] at hk
        subst hk
        simp only
        rw [hm.nodup.erase_eq_filter]
        simp
    · rw [if_neg hn]
      exact ⟨m, rfl, hm, Frame.refl _ _, rfl, fun _ h => h, by simpa [ids, Ptr.id?] using hn⟩

/-- What a copy, or a string of a block that is not copied, has in common. -/
theorem copyIf_ok {m : Mem} (hm : MemOk m) {b : Bool} {p : Ptr} {t : Bytes} (h : m.text p = some t)
    (hb : b = false → ∃ i u, p = .block i u) :
    ∃ p' m', copyIf b m p = .ok (p', m') ∧ MemOk m' ∧ Frame [] m m' ∧ m'.text p' = some t ∧ Held m' p' ∧ New m.next p'
      ∧ (∀ k, p' = .own k → k < m'.next) ∧ (b = true → ∃ k, p' = .own k) := by
  cases b with
  | true =>
    obtain ⟨m', h1, h2, h3, h4, h5, _⟩ := copyString_ok hm h
    refine ⟨_, m', h1, h2, h3, h4, ⟨by simp, _, h4⟩, ?_, ?_⟩
    · intro k hk; cases hk; exact Nat.le_refl _
    · exact ⟨fun k hk => by cases hk; omega, fun _ => ⟨_, rfl⟩⟩
  | false =>
    obtain ⟨i, u, rfl⟩ := hb rfl
    exact ⟨_, m, rfl, hm, Frame.refl _ _, h, ⟨by simp, _, h⟩, (by intro k hk; cases hk), (by intro k hk; cases hk), (by simp)⟩

/-! ## Searching -/

section
variable {α : Type} {m : Mem} {name : α → Ptr} {N : α → Bytes}

theorem lower_ok {p : Ptr} {t : Bytes} (hp : m.text p = some t) : ∀ {l : List α}, (∀ e ∈ l, m.text (name e) = some (N e)) →
    lower m name p l = .ok (l.takeWhile (fun e => less (N e) t), l.dropWhile (fun e => less (N e) t))
  | [], _ => rfl
  | e :: l, h => by
    have ih := lower_ok hp (l := l) fun e he => h e (List.mem_cons_of_mem _ he)
    unfold lower
    rw [read_ok (h e (by simp)), read_ok hp, ih]
    by_cases hl : less (N e) t = true
    · simp [bind, Except.bind, hl]
    · simp [bind, Except.bind, hl]

/-- Is the first element not greater? -/
def first (N : α → Bytes) (t : Bytes) : List α → Bool
  | [] => false
  | e :: _ => !(less t (N e))

theorem hit_ok {p : Ptr} {t : Bytes} {l : List α} (hp : m.text p = some t) (h : ∀ e, l.head? = some e → m.text (name e) = some (N e)) :
    hit m name p l = .ok (first N t l) := by
  cases l with
  | nil => rfl
  | cons e l =>
    unfold hit
    simp only
    rw [read_ok (h e rfl), read_ok hp]
    rfl

theorem insert_ok {x : α} (hx : m.text (name x) = some (N x)) : ∀ {l : List α}, (∀ e ∈ l, m.text (name e) = some (N e)) →
    insert m name x l = .ok (insertBy N x l)
  | [], _ => rfl
  | e :: l, h => by
    have ih := insert_ok hx (l := l) fun e he => h e (List.mem_cons_of_mem _ he)
    unfold insert
    rw [read_ok (h e (by simp)), read_ok hx, ih, IniStore.insertBy_cons]
    by_cases hl : less (N x) (N e) = true
    · simp [bind, Except.bind, hl]
    · simp [bind, Except.bind, hl]
end

/-! ## Sorted lists as searches see them -/

section
variable {α : Type} {N : α → Bytes}

theorem takeWhile_lower {l : List α} {t : Bytes} : ∀ e ∈ l.takeWhile (fun e => less (N e) t), less (N e) t = true := by
  intro e he
  induction l with
  | nil => simp at he
  | cons a l ih =>
    rw [List.takeWhile_cons] at he
    split at he
    · rcases List.mem_cons.mp he with rfl | he
      · assumption
      · exact ih he
    · cases he

theorem dropWhile_lower {l : List α} (h : SortedW N l) {t : Bytes} : ∀ e ∈ l.dropWhile (fun e => less (N e) t), less (N e) t = false := by
  induction l with
  | nil => simp
  | cons a l ih =>
    have h' := List.pairwise_cons.mp h
    rw [List.dropWhile_cons]
    split
    · exact ih h'.2
    · rename_i ha
      intro e he
      rcases List.mem_cons.mp he with rfl | he
      · simpa using ha
      · have := h'.1 e he
        cases hl : less (N e) t with
        | false => rfl
        | true => exact absurd (IniStore.less_of_le_less this hl) ha

/-- The elements of a name in a sorted list, and those in front of and behind them. -/
theorem sorted_split {l : List α} (h : SortedW N l) (t : Bytes) :
    l.filter (fun e => sameName (N e) t) = (l.dropWhile (fun e => less (N e) t)).takeWhile (fun e => !less t (N e))
    ∧ l.filter (fun e => !sameName (N e) t)
      = l.takeWhile (fun e => less (N e) t) ++ (l.dropWhile (fun e => less (N e) t)).dropWhile (fun e => !less t (N e)) := by
  induction l with
  | nil => simp
  | cons a l ih =>
    have h' := List.pairwise_cons.mp h
    obtain ⟨i1, i2⟩ := ih h'.2
    by_cases ha : less (N a) t = true
    · have hs := IniStore.less_not_same ha
      simp only [List.filter_cons, List.dropWhile_cons, List.takeWhile_cons, ha, hs, if_true]
      simp only [Bool.not_false, if_true, Bool.false_eq_true, if_false]
      exact ⟨i1, by rw [i2]; rfl⟩
    · have hge : ∀ e ∈ l, less (N e) t = false := by
        intro e he
        cases hl : less (N e) t with
        | false => rfl
        | true => exact absurd (IniStore.less_of_le_less (h'.1 e he) hl) ha
      have hd : l.dropWhile (fun e => less (N e) t) = l := by
        cases l with
        | nil => rfl
        | cons b l => rw [List.dropWhile_cons, hge b (by simp)]; rfl
      have ht : l.takeWhile (fun e => less (N e) t) = [] := by
        cases l with
        | nil => rfl
        | cons b l => rw [List.takeWhile_cons, hge b (by simp)]; rfl
      rw [hd] at i1 i2
      rw [ht] at i2
      have haf : less (N a) t = false := by simpa using ha
      by_cases hg : less t (N a) = true
      · have hs := IniStore.less_not_same' hg
        have hall : ∀ e ∈ l, less t (N e) = true := fun e he => IniStore.less_of_less_le hg (h'.1 e he)
        have e1 : l.filter (fun e => sameName (N e) t) = [] := by
          rw [List.filter_eq_nil_iff]
          intro e he; rw [IniStore.less_not_same' (hall e he)]; simp
        have e2 : l.filter (fun e => !sameName (N e) t) = l := by
          rw [List.filter_eq_self]
          intro e he; rw [IniStore.less_not_same' (hall e he)]; rfl
        simp [List.filter_cons, List.dropWhile_cons, List.takeWhile_cons, haf, hs, hg, e1, e2]
      · have hgf : less t (N a) = false := by simpa using hg
        have hs : sameName (N a) t = true := IniStore.same_iff.mpr ⟨haf, hgf⟩
        simp only [List.filter_cons, List.dropWhile_cons, List.takeWhile_cons, haf, hs, hgf, if_true, Bool.not_false, Bool.not_true,
          Bool.false_eq_true, if_false]
        exact ⟨by rw [i1], by simpa using i2⟩

theorem first_iff {l : List α} (h : SortedW N l) (t : Bytes) :
    first N t (l.dropWhile (fun e => less (N e) t)) = true ↔ l.filter (fun e => sameName (N e) t) ≠ [] := by
  rw [(sorted_split h t).1]
  cases hd : l.dropWhile (fun e => less (N e) t) with
  | nil => simp [first]
  | cons e l' =>
    unfold first
    rw [List.takeWhile_cons]
    cases h : less t (N e) <;> simp [h]
end

/-! ## Loops -/

/-- Name and value of a key. -/
def Key.strings (e : Key) : List Ptr := [e.name, e.value]

theorem nodup_cons_frame {e : Key} {l : List Key} (h : (ids ((e :: l).flatMap Key.strings)).Nodup) :
    (ids (l.flatMap Key.strings)).Nodup ∧ ∀ n ∈ ids e.strings, n ∉ ids (l.flatMap Key.strings) := by
  rw [List.flatMap_cons, ids_append, List.nodup_append] at h
  exact ⟨h.2.1, fun n hn hn' => h.2.2 n hn n hn' rfl⟩

theorem deleteKey_ok {m : Mem} (hm : MemOk m) (e : Key) :
    ∃ m1 m', deleteString m e.name = .ok m1 ∧ deleteString m1 e.value = .ok m' ∧ MemOk m' ∧ Frame (ids e.strings) m m' ∧ m'.next = m.next
      ∧ (∀ n ∈ m'.strings, n ∈ m.strings ∧ n ∉ ids e.strings) := by
  obtain ⟨m1, h1, o1, f1, n1, s1, d1⟩ := deleteString_ok hm e.name
  obtain ⟨m2, h2, o2, f2, n2, s2, d2⟩ := deleteString_ok o1 e.value
  have he : ids e.strings = ids [e.name] ++ ids [e.value] := ids_append [e.name] [e.value]
  refine ⟨m1, m2, h1, h2, o2, ?_, n2.trans n1, ?_⟩
  · rw [he]; exact f1.trans f2
  · intro n hn
    refine ⟨s1 n (s2 n hn), ?_⟩
    rw [he]
    intro h
    rcases List.mem_append.mp h with h | h
    · exact d1 n h (s2 n hn)
    · exact d2 n h hn

theorem deleteRun_ok {N : Key → Bytes} {k : Ptr} {t : Bytes} : ∀ (l : List Key) (m : Mem), MemOk m →
    (∀ e ∈ l, m.text e.name = some (N e)) → m.text k = some t → (ids (l.flatMap Key.strings)).Nodup →
    (l ≠ [] → first N t l = true) → (∀ e ∈ l.takeWhile (fun e => !less t (N e)), k ∉ e.strings) →
    ∃ m', deleteRun m k l = .ok (m', l.dropWhile (fun e => !less t (N e))) ∧ MemOk m'
      ∧ Frame (ids ((l.takeWhile (fun e => !less t (N e))).flatMap Key.strings)) m m' ∧ m'.next = m.next
      ∧ (∀ n ∈ m'.strings, n ∈ m.strings ∧ n ∉ ids ((l.takeWhile (fun e => !less t (N e))).flatMap Key.strings))
  | [], m, hm, _, _, _, _, _ => ⟨m, rfl, hm, Frame.refl _ _, rfl, fun n hn => ⟨hn, by simp [ids]⟩⟩
  | e :: l, m, hm, hN, hk, hd, hf, hks => by
    have hf' : (!less t (N e)) = true := hf (by simp)
    obtain ⟨hd1, hd2⟩ := nodup_cons_frame hd
    obtain ⟨m1, m2, e1, e2, o2, f2, n2, s2⟩ := deleteKey_ok hm e
    have hks0 : k ∉ e.strings := hks e (by rw [List.takeWhile_cons, if_pos hf']; simp)
    have hk2 : m2.text k = some t := f2.text k t hk fun n hn hh => hks0 (by rw [hh]; exact mem_ids.mp hn)
    have hN2 : ∀ e' ∈ l, m2.text e'.name = some (N e') := by
      intro e' he'
      refine f2.text _ _ (hN e' (by simp [he'])) fun n hn hh => hd2 n hn ?_
      rw [mem_ids, List.mem_flatMap]
      exact ⟨e', he', by simp [Key.strings, ← hh]⟩
    unfold deleteRun
    rw [e1]
    simp only [bind, Except.bind]
    rw [e2]
    simp only [bind, Except.bind]
    rw [hit_ok (N := N) hk2 fun e' he' => hN2 e' (List.mem_of_mem_head? he')]
    rw [List.takeWhile_cons, if_pos hf', List.dropWhile_cons, if_pos hf', List.flatMap_cons, ids_append]
    simp only
    cases hfl : first N t l with
    | true =>
      obtain ⟨m3, e3, o3, f3, n3, s3⟩ := deleteRun_ok l m2 o2 hN2 hk2 hd1 (fun _ => hfl)
        fun e' he' => hks e' (by rw [List.takeWhile_cons, if_pos hf']; simp [he'])
      refine ⟨m3, e3, o3, f2.trans f3, n3.trans n2, fun n hn => ?_⟩
      obtain ⟨h1, h2⟩ := s3 n hn
      obtain ⟨h3, h4⟩ := s2 n h1
      exact ⟨h3, fun h => (List.mem_append.mp h).elim h4 h2⟩
    | false =>
      cases l with
      | nil => exact ⟨m2, rfl, o2, by simpa [ids] using f2, n2, by simpa [ids] using s2⟩
      | cons a l =>
        have ha : ¬ (!less t (N a)) = true := by simpa [first] using hfl
        rw [List.dropWhile_cons, if_neg ha, List.takeWhile_cons, if_neg ha]
        exact ⟨m2, rfl, o2, by simpa [ids] using f2, n2, by simpa [ids] using s2⟩

theorem deleteAll_ok : ∀ (l : List Key) (m : Mem), MemOk m →
    ∃ m', deleteAll m l = .ok m' ∧ MemOk m' ∧ Frame (ids (l.flatMap Key.strings)) m m' ∧ m'.next = m.next
      ∧ (∀ n ∈ m'.strings, n ∈ m.strings ∧ n ∉ ids (l.flatMap Key.strings))
  | [], m, hm => ⟨m, rfl, hm, Frame.refl _ _, rfl, fun n hn => ⟨hn, by simp [ids]⟩⟩
  | e :: l, m, hm => by
    obtain ⟨m1, m2, e1, e2, o2, f2, n2, s2⟩ := deleteKey_ok hm e
    obtain ⟨m3, e3, o3, f3, n3, s3⟩ := deleteAll_ok l m2 o2
    refine ⟨m3, ?_, o3, ?_, n3.trans n2, ?_⟩
    · unfold deleteAll
      rw [e1]
      simp only [bind, Except.bind]
      rw [e2]
      exact e3
    · rw [List.flatMap_cons, ids_append]; exact f2.trans f3
    · intro n hn
      obtain ⟨h1, h2⟩ := s3 n hn
      obtain ⟨h3, h4⟩ := s2 n h1
      refine ⟨h3, ?_⟩
      rw [List.flatMap_cons, ids_append, List.mem_append]
      rintro (h | h)
      · exact h4 h
      · exact h2 h

theorem oldest_ok {m : Mem} {N : Key → Bytes} {k : Ptr} {t : Bytes} (hk : m.text k = some t) :
    ∀ (l : List Key) (acc : Nat × Option Ptr), (∀ e ∈ l, m.text e.name = some (N e)) →
    oldest m k acc l = .ok ((l.takeWhile (fun e => !less t (N e))).foldl (fun acc e => if e.order < acc.1 then (e.order, e.comment) else acc) acc)
  | [], acc, _ => rfl
  | e :: l, acc, h => by
    unfold oldest
    rw [hit_ok (N := N) hk fun e' he' => h e' (List.mem_of_mem_head? he')]
    simp only [bind, Except.bind, first]
    rw [List.takeWhile_cons]
    by_cases hl : (!less t (N e)) = true
    · simp only [hl, if_true]
      exact oldest_ok hk l _ fun e he => h e (List.mem_cons_of_mem _ he)
    · simp only [hl]; rfl

/-- The comment found is one of the comments. -/
theorem oldest_comment : ∀ (l : List Key) (acc : Nat × Option Ptr) (p : Ptr),
    (l.foldl (fun acc e => if e.order < acc.1 then (e.order, e.comment) else acc) acc).2 = some p → acc.2 = some p ∨ ∃ e ∈ l, e.comment = some p
  | [], acc, p, h => .inl h
  | e :: l, acc, p, h => by
    rcases oldest_comment l _ p h with h | ⟨e', he', h⟩
    · simp only at h
      split at h
      · exact .inr ⟨e, by simp, h⟩
      · exact .inl h
    · exact .inr ⟨e', by simp [he'], h⟩

/-! ## The object as a store of texts -/

/-- The text at an address. -/
def tx (m : Mem) (p : Ptr) : Bytes := (m.text p).getD []

theorem tx_eq {m : Mem} {p : Ptr} {t : Bytes} (h : m.text p = some t) : tx m p = t := by unfold tx; rw [h]; rfl

theorem Held.text {m : Mem} {p : Ptr} (h : Held m p) : m.text p = some (tx m p) := by
  obtain ⟨t, ht⟩ := h.2
  rw [tx_eq ht, ht]

/-- All strings of a key. -/
def Key.ptrs (e : Key) : List Ptr := e.strings ++ e.comment.toList

/-- A key with texts in place of addresses. -/
def viewKey (m : Mem) (e : Key) : IniStore.Key := ⟨tx m e.name, e.comment.map (tx m), e.order, tx m e.value⟩

theorem tx_frame {D : List Nat} {m m' : Mem} {p : Ptr} (h : Held m p) (hf : Frame D m m') (hD : ∀ n ∈ D, p ≠ .own n) : tx m' p = tx m p :=
  tx_eq (hf.text p _ h.text hD)

theorem viewKey_frame {D : List Nat} {m m' : Mem} {e : Key} (h : ∀ p ∈ e.ptrs, Held m p) (hf : Frame D m m')
    (hD : ∀ n ∈ D, Ptr.own n ∉ e.ptrs) : viewKey m' e = viewKey m e := by
  have key : ∀ p ∈ e.ptrs, tx m' p = tx m p := fun p hp => tx_frame (h p hp) hf fun n hn hh => hD n hn (hh ▸ hp)
  unfold viewKey
  rw [key e.name (by simp [Key.ptrs, Key.strings]), key e.value (by simp [Key.ptrs, Key.strings])]
  cases hc : e.comment with
  | none => rfl
  | some c => simp only [Option.map_some]; rw [key c (by simp [Key.ptrs, hc])]

theorem map_insertBy {α β : Type} {f : α → β} {N : α → Bytes} {M : β → Bytes} (x : α) : ∀ (l : List α), (∀ e ∈ l, M (f e) = N e) → M (f x) = N x →
    (insertBy N x l).map f = insertBy M (f x) (l.map f)
  | [], _, _ => rfl
  | e :: l, h, hx => by
    rw [List.map_cons, IniStore.insertBy_cons, IniStore.insertBy_cons, h e (by simp), hx]
    split
    · rfl
    · rw [List.map_cons, map_insertBy x l (fun e he => h e (List.mem_cons_of_mem _ he)) hx]

/-- Where the strings of a key come from: an old key, or new. -/
def Origin (n : Nat) (keys : List Key) (e : Key) : Prop :=
  (∃ e0 ∈ keys, e.name = e0.name ∧ (e.value = e0.value ∨ New n e.value)) ∨ (New n e.name ∧ New n e.value)

/-- A string made during a call; a copy if strings are copied. -/
def Made (copy : Bool) (n n' : Nat) (p : Ptr) : Prop := (∀ i, p = .own i → n ≤ i ∧ i < n') ∧ (copy = true → ∃ i, p = .own i)

theorem Made.mono {copy : Bool} {a b a' b' : Nat} {p : Ptr} (h : Made copy a b p) (h1 : a' ≤ a) (h2 : b ≤ b') : Made copy a' b' p :=
  ⟨fun i hi => ⟨Nat.le_trans h1 (h.1 i hi).1, Nat.lt_of_lt_of_le (h.1 i hi).2 h2⟩, h.2⟩

/-- What holds of the keys of a section after a change, beginning with `keys`; `c` is the comment that may have been stored. -/
structure KeysAfter (copy : Bool) (m m' : Mem) (c : Option Ptr) (keys keys' : List Key) : Prop where
  held : ∀ e ∈ keys', ∀ p ∈ e.ptrs, Held m' p
  nodup : (ids (keys'.flatMap Key.ptrs)).Nodup
  src : ∀ p ∈ keys'.flatMap Key.ptrs, p ∈ c.toList ++ keys.flatMap Key.ptrs ∨ Made copy m.next m'.next p
  origin : ∀ e ∈ keys', Origin m.next keys e

theorem KeysAfter.ids {copy : Bool} {m m' : Mem} {c : Option Ptr} {keys keys' : List Key} (h : KeysAfter copy m m' c keys keys') :
    ∀ i ∈ ids (keys'.flatMap Key.ptrs), i ∈ ids (c.toList ++ keys.flatMap Key.ptrs) ∨ (m.next ≤ i ∧ i < m'.next) := by
  intro i hi
  rcases h.src _ (mem_ids.mp hi) with h | h
  · exact .inl (mem_ids.mpr h)
  · exact .inr (h.1 i rfl)

theorem insertKey_ok {m : Mem} (hm : MemOk m) {k v : Ptr} {c : Option Ptr} {copy : Bool} (n : Nat) {keys : List Key} {tk tv : Bytes}
    (hk : m.text k = some tk) (hv : m.text v = some tv) (hc : ∀ p, c = some p → Held m p)
    (hcopy : copy = false → (∃ i u, k = .block i u) ∧ ∃ i u, v = .block i u)
    (hheld : ∀ e ∈ keys, ∀ p ∈ e.ptrs, Held m p) (hd : (ids (c.toList ++ keys.flatMap Key.ptrs)).Nodup) :
    ∃ keys' m', insertKey k v c copy n keys m = .ok (true, keys', m') ∧ MemOk m' ∧ Frame [] m m'
      ∧ keys'.map (viewKey m') = insertBy IniStore.Key.name ⟨tk, c.map (tx m), n, tv⟩ (keys.map (viewKey m)) ∧ KeysAfter copy m m' c keys keys' := by
  obtain ⟨k', m1, e1, o1, f1, t1, h1, n1, b1, c1⟩ := copyIf_ok hm hk fun h => (hcopy h).1
  obtain ⟨v', m2, e2, o2, f2, t2, h2, n2, b2, c2⟩ := copyIf_ok o1 (f1.text v tv hv (by simp)) fun h => (hcopy h).2
  have f12 : Frame [] m m2 := f1.trans f2
  have hk2 : m2.text k' = some tk := f2.text _ _ t1 (by simp)
  have hheld2 : ∀ e ∈ keys, ∀ p ∈ e.ptrs, Held m2 p := fun e he p hp => (hheld e he p hp).frame f12 (by simp)
  have hN : ∀ e ∈ keys, m2.text e.name = some (tx m2 e.name) := fun e he => (hheld2 e he e.name (by simp [Key.ptrs, Key.strings])).text
  refine ⟨insertBy (fun e => tx m2 e.name) ⟨k', c, n, v'⟩ keys, m2, ?_, o2, f12, ?_, ?_⟩
  · unfold insertKey
    rw [e1]
    simp only [bind, Except.bind]
    rw [e2]
    simp only
    rw [insert_ok (N := fun e => tx m2 e.name) (by simpa using (show m2.text k' = some (tx m2 k') by rw [tx_eq hk2, hk2])) hN]
  · rw [map_insertBy (f := viewKey m2) (N := fun e => tx m2 e.name) (M := IniStore.Key.name) _ _ (fun _ _ => rfl) rfl]
    have hx : viewKey m2 ⟨k', c, n, v'⟩ = ⟨tk, c.map (tx m), n, tv⟩ := by
      unfold viewKey
      simp only
      rw [tx_eq hk2, tx_eq t2]
      cases c with
      | none => rfl
      | some c => simp only [Option.map_some]; rw [tx_frame (hc c rfl) f12 (by simp)]
    rw [hx]
    congr 1
    exact List.map_congr_left fun e he => viewKey_frame (hheld e he) f12 (by simp)
  · have hperm := IniStore.insertBy_perm (fun e : Key => tx m2 e.name) ⟨k', c, n, v'⟩ keys
    have hmem : ∀ e, e ∈ insertBy (fun e : Key => tx m2 e.name) ⟨k', c, n, v'⟩ keys ↔ e = ⟨k', c, n, v'⟩ ∨ e ∈ keys := fun e => IniStore.mem_insertBy _
    have hk'n : ∀ i, k' = .own i → m.next ≤ i ∧ i < m1.next := fun i hi => ⟨n1 i hi, b1 i hi⟩
    have hv'n : ∀ i, v' = .own i → m1.next ≤ i ∧ i < m2.next := fun i hi => ⟨n2 i hi, b2 i hi⟩
    have hold : ∀ i ∈ ids (c.toList ++ keys.flatMap Key.ptrs), i < m.next := by
      intro i hi
      rw [mem_ids] at hi
      have : Held m (.own i) := by
        rcases List.mem_append.mp hi with hi | hi
        · exact hc _ (by simpa using hi)
        · obtain ⟨e, he, hp⟩ := List.mem_flatMap.mp hi
          exact hheld e he _ hp
      obtain ⟨t, ht⟩ := this.2
      exact text_bound hm ht
    have hidsPerm : (IniHeap.ids ((insertBy (fun e : Key => tx m2 e.name) ⟨k', c, n, v'⟩ keys).flatMap Key.ptrs)).Perm
        (IniHeap.ids [k'] ++ (IniHeap.ids [v'] ++ IniHeap.ids (c.toList ++ keys.flatMap Key.ptrs))) := by
      rw [← ids_append, ← ids_append]
      refine ids_perm ((hperm.flatMap_right _).trans ?_)
      simp [List.flatMap_cons, Key.ptrs, Key.strings]
    have hnext := f1.next
    refine ⟨?_, ?_, ?_, ?_⟩
    · intro e he p hp
      rcases (hmem e).mp he with rfl | he
      · rcases List.mem_append.mp hp with hp | hp
        · simp [Key.strings] at hp
          rcases hp with rfl | rfl
          · exact h1.frame f2 (by simp)
          · exact h2
        · exact (hc p (by simpa using hp)).frame f12 (by simp)
      · exact hheld2 e he p hp
    · rw [hidsPerm.nodup_iff, List.nodup_append, List.nodup_append]
      have one : ∀ p : Ptr, (IniHeap.ids [p]).Nodup := by
        intro p
        cases p with
        | caller t => exact .nil
        | block b t => exact .nil
        | own i => exact List.nodup_cons.mpr ⟨by simp, .nil⟩
      have inj : ∀ (p : Ptr) i, i ∈ IniHeap.ids [p] → p = .own i := fun p i hi =>
        (by simpa using mem_ids.mp hi : Ptr.own i = p).symm
      refine ⟨one _, ⟨one _, hd, ?_⟩, ?_⟩
      · intro a ha b hb e
        have := hv'n a (inj _ _ ha)
        have := hold b hb
        omega
      · intro a ha b hb e
        have h1 := hk'n a (inj _ _ ha)
        rcases List.mem_append.mp hb with hb | hb
        · have := hv'n b (inj _ _ hb)
          omega
        · have := hold b hb
          omega
    · intro p hp
      obtain ⟨e, he, hp⟩ := List.mem_flatMap.mp hp
      have hnext2 := f2.next
      rcases (hmem e).mp he with rfl | he
      · rcases List.mem_append.mp hp with hp | hp
        · simp [Key.strings] at hp
          rcases hp with rfl | rfl
          · exact .inr ⟨fun i hi => ⟨n1 i hi, Nat.lt_of_lt_of_le (b1 i hi) hnext2⟩, c1⟩
          · exact .inr ⟨fun i hi => ⟨Nat.le_trans hnext (n2 i hi), b2 i hi⟩, c2⟩
        · exact .inl (List.mem_append_left _ hp)
      · exact .inl (List.mem_append_right _ (List.mem_flatMap.mpr ⟨e, he, hp⟩))
    · intro e he
      rcases (hmem e).mp he with rfl | he
      · exact .inr ⟨n1, fun i hi => Nat.le_trans hnext (n2 i hi)⟩
      · exact .inl ⟨e, he, rfl, .inl rfl⟩

theorem foldl_oldest (m : Mem) : ∀ (l : List Key) (acc : Nat × Option Ptr),
    (l.map (viewKey m)).foldl (fun acc e => if e.order < acc.1 then (e.order, e.comment) else acc) (acc.1, acc.2.map (tx m))
    = let r := l.foldl (fun acc e => if e.order < acc.1 then (e.order, e.comment) else acc) acc
      (r.1, r.2.map (tx m))
  | [], acc => rfl
  | e :: l, acc => by
    rw [List.map_cons, List.foldl_cons, List.foldl_cons]
    have : (if (viewKey m e).order < acc.1 then ((viewKey m e).order, (viewKey m e).comment) else (acc.1, acc.2.map (tx m)))
        = (((if e.order < acc.1 then (e.order, e.comment) else acc) : Nat × Option Ptr).1,
           ((if e.order < acc.1 then (e.order, e.comment) else acc) : Nat × Option Ptr).2.map (tx m)) := by
      by_cases h : e.order < acc.1
      · simp [h, viewKey]
      · simp [h, viewKey]
    simp only [this]
    exact foldl_oldest m l _

theorem keepComment_ok {m : Mem} (hm : MemOk m) {c old : Option Ptr} (hold : ∀ p, old = some p → Held m p ∧ c ≠ some p)
    (hc : ∀ p, c = some p → Held m p) :
    ∃ c' m', keepComment m c old = .ok (c', m') ∧ MemOk m' ∧ Frame (ids c.toList) m m' ∧ (∀ p, c' = some p → Held m' p)
      ∧ c'.map (tx m') = (old.or c).map (tx m) ∧ ((c' = c ∧ m' = m) ∨ ∃ i, c' = some (.own i) ∧ m.next ≤ i ∧ i < m'.next) := by
  cases old with
  | none => exact ⟨c, m, rfl, hm, Frame.refl _ _, hc, rfl, .inl ⟨rfl, rfl⟩⟩
  | some p =>
    obtain ⟨hp, hne⟩ := hold p rfl
    obtain ⟨m1, e1, o1, f1, n1⟩ : ∃ m1, deleteStringOpt m c = .ok m1 ∧ MemOk m1 ∧ Frame (ids c.toList) m m1 ∧ m1.next = m.next := by
      cases c with
      | none => exact ⟨m, rfl, hm, Frame.refl _ _, rfl⟩
      | some q =>
        obtain ⟨m1, e1, o1, f1, n1, _⟩ := deleteString_ok hm q
        exact ⟨m1, e1, o1, f1, n1⟩
    have hpt : m1.text p = some (tx m p) := f1.text p _ hp.text fun n hn hh => hne (by
      rw [mem_ids] at hn; rw [hh]; simpa using hn)
    obtain ⟨m2, e2, o2, f2, t2, n2, _⟩ := copyString_ok o1 hpt
    refine ⟨some (.own m1.next), m2, ?_, o2, ?_, ?_, ?_, ?_⟩
    · unfold keepComment
      simp only [e1, bind, Except.bind, e2]
    · have := f1.trans f2
      simpa using this
    · intro q hq
      cases hq
      exact ⟨by simp, _, t2⟩
    · simp [tx_eq t2]
    · exact .inr ⟨m1.next, rfl, by omega, by omega⟩

theorem sublist_takeDrop (keys : List Key) (f g : Key → Bool) :
    ((keys.takeWhile f ++ (keys.dropWhile f).dropWhile g)).Sublist keys := by
  have : ((keys.takeWhile f ++ (keys.dropWhile f).dropWhile g)).Sublist (keys.takeWhile f ++ keys.dropWhile f) :=
    (List.Sublist.refl _).append (List.dropWhile_sublist _)
  rwa [List.takeWhile_append_dropWhile] at this

theorem flatMap_sublist {α β : Type} {f : α → List β} {a b : List α} (h : a.Sublist b) : (a.flatMap f).Sublist (b.flatMap f) := by
  induction h with
  | slnil => exact .slnil
  | cons x _ ih => rw [List.flatMap_cons]; exact ih.trans (List.sublist_append_right _ _)
  | cons_cons x _ ih => rw [List.flatMap_cons, List.flatMap_cons]; exact (List.Sublist.refl _).append ih

theorem strings_sublist (l : List Key) : (l.flatMap Key.strings).Sublist (l.flatMap Key.ptrs) := by
  induction l with
  | nil => exact .slnil
  | cons e l ih =>
    rw [List.flatMap_cons, List.flatMap_cons]
    exact (List.sublist_append_left _ _).append ih

end Licensecc.IniHeap
