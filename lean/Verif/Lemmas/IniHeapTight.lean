import Verif.Lemmas.IniHeapReplace
import Verif.Lemmas.IniLoaded
/-!
# Lemmas about the memory of INI objects: without comments nothing is lost

Every function is followed for the case that it succeeds; that it does is in the other files.
-/
namespace Licensecc.IniHeap
open Ini hiding getValue setKey load
open IniStore (Options Found)
open IniMem (less)

theorem bind_ok {ε α β : Type} {x : Except ε α} {f : α → Except ε β} {b : β} (h : x.bind f = .ok b) : ∃ a, x = .ok a ∧ f a = .ok b := by
  cases x with
  | error e => cases h
  | ok a => exact ⟨a, rfl, h⟩

theorem copyIf_strings {b : Bool} {m m' : Mem} {p p' : Ptr} (h : copyIf b m p = .ok (p', m')) : ∀ i ∈ m'.strings, i ∈ m.strings ∨ p' = .own i := by
  unfold copyIf at h
  split at h
  · unfold copyString at h
    obtain ⟨t, _, h⟩ := bind_ok h
    cases h
    intro i hi
    simp only [List.mem_append, List.mem_cons, List.not_mem_nil, or_false] at hi
    rcases hi with hi | rfl
    · exact .inl hi
    · exact .inr rfl
  · cases h
    exact fun i hi => .inl hi

theorem deleteString_strings {m m' : Mem} {p : Ptr} (hn : m.strings.Nodup) (h : deleteString m p = .ok m') :
    m'.strings.Nodup ∧ ∀ i ∈ m'.strings, i ∈ m.strings ∧ p ≠ .own i := by
  cases p with
  | caller t => cases h; exact ⟨hn, fun i hi => ⟨hi, by simp⟩⟩
  | block b t => cases h; exact ⟨hn, fun i hi => ⟨hi, by simp⟩⟩
  | own n =>
    unfold deleteString at h
    simp only at h
    split at h
    · obtain ⟨m1, h1, h⟩ := bind_ok h
      cases h
      unfold release at h1
      split at h1
      · cases h1
        refine ⟨hn.erase _, fun i hi => ?_⟩
        have := (List.Nodup.mem_erase_iff hn).mp hi
        exact ⟨this.2, fun e => this.1 (by cases e; rfl)⟩
      · cases h1
    · rename_i hni
      cases h
      exact ⟨hn, fun i hi => ⟨hi, fun e => hni (by cases e; exact hi)⟩⟩

theorem deleteRun_strings {k : Ptr} : ∀ {l : List Key} {m m' : Mem} {l' : List Key}, m.strings.Nodup → deleteRun m k l = .ok (m', l') →
    ∃ pre, l = pre ++ l' ∧ m'.strings.Nodup ∧ ∀ i ∈ m'.strings, i ∈ m.strings ∧ Ptr.own i ∉ pre.flatMap Key.strings
  | [], m, m', l', hn, h => by cases h; exact ⟨[], rfl, hn, fun i hi => ⟨hi, by simp⟩⟩
  | e :: l, m, m', l', hn, h => by
    unfold deleteRun at h
    obtain ⟨m1, h1, h⟩ := bind_ok h
    obtain ⟨m2, h2, h⟩ := bind_ok h
    obtain ⟨again, _, h⟩ := bind_ok h
    obtain ⟨n1, s1⟩ := deleteString_strings hn h1
    obtain ⟨n2, s2⟩ := deleteString_strings n1 h2
    have key : ∀ i ∈ m2.strings, i ∈ m.strings ∧ Ptr.own i ∉ e.strings := by
      intro i hi
      obtain ⟨a1, a2⟩ := s2 i hi
      obtain ⟨b1, b2⟩ := s1 i a1
      refine ⟨b1, fun hh => ?_⟩
      simp only [Key.strings, List.mem_cons, List.not_mem_nil, or_false] at hh
      rcases hh with hh | hh
      · exact b2 hh.symm
      · exact a2 hh.symm
    split at h
    · obtain ⟨pre, p1, p2, p3⟩ := deleteRun_strings n2 h
      refine ⟨e :: pre, by rw [p1]; rfl, p2, fun i hi => ?_⟩
      obtain ⟨a1, a2⟩ := p3 i hi
      obtain ⟨b1, b2⟩ := key i a1
      exact ⟨b1, by simp only [List.flatMap_cons, List.mem_append]; exact fun hh => hh.elim b2 a2⟩
    · cases h
      exact ⟨[e], rfl, n2, fun i hi => ⟨(key i hi).1, by simpa using (key i hi).2⟩⟩

theorem deleteAll_strings : ∀ {l : List Key} {m m' : Mem}, m.strings.Nodup → deleteAll m l = .ok m' →
    m'.strings.Nodup ∧ ∀ i ∈ m'.strings, i ∈ m.strings ∧ Ptr.own i ∉ l.flatMap Key.strings
  | [], m, m', hn, h => by cases h; exact ⟨hn, fun i hi => ⟨hi, by simp⟩⟩
  | e :: l, m, m', hn, h => by
    unfold deleteAll at h
    obtain ⟨m1, h1, h⟩ := bind_ok h
    obtain ⟨m2, h2, h⟩ := bind_ok h
    obtain ⟨n1, s1⟩ := deleteString_strings hn h1
    obtain ⟨n2, s2⟩ := deleteString_strings n1 h2
    obtain ⟨p2, p3⟩ := deleteAll_strings n2 h
    refine ⟨p2, fun i hi => ?_⟩
    obtain ⟨c1, c2⟩ := p3 i hi
    obtain ⟨a1, a2⟩ := s2 i c1
    obtain ⟨b1, b2⟩ := s1 i a1
    refine ⟨b1, fun hh => ?_⟩
    simp only [List.flatMap_cons, List.mem_append, Key.strings, List.mem_cons, List.not_mem_nil, or_false] at hh
    rcases hh with (hh | hh) | hh
    · exact b2 hh.symm
    · exact a2 hh.symm
    · exact c2 hh

theorem lower_split {α : Type} {m : Mem} {name : α → Ptr} {p : Ptr} : ∀ {l : List α} {r : List α × List α}, lower m name p l = .ok r → l = r.1 ++ r.2
  | [], r, h => by cases h; rfl
  | e :: l, r, h => by
    unfold lower at h
    obtain ⟨a, _, h⟩ := bind_ok h
    obtain ⟨b, _, h⟩ := bind_ok h
    split at h
    · obtain ⟨r1, h1, h⟩ := bind_ok h
      cases h
      rw [lower_split h1]
      rfl
    · cases h; rfl

theorem insert_perm {α : Type} {m : Mem} {name : α → Ptr} {x : α} : ∀ {l r : List α}, insert m name x l = .ok r → r.Perm (x :: l)
  | [], r, h => by cases h; exact .refl _
  | e :: l, r, h => by
    unfold insert at h
    obtain ⟨a, _, h⟩ := bind_ok h
    obtain ⟨b, _, h⟩ := bind_ok h
    split at h
    · cases h; exact .refl _
    · obtain ⟨r1, h1, h⟩ := bind_ok h
      cases h
      exact ((insert_perm h1).cons e).trans (.swap _ _ _)

/-- No key has a comment. -/
def PlainKeys (keys : List Key) : Prop := ∀ q ∈ keys, q.comment = none

/-- No comment at all. -/
def Plain (x : Obj) : Prop := x.fileComment = none ∧ ∀ e ∈ x.sections, e.comment = none ∧ PlainKeys e.keys

theorem insertKey_tight {k v : Ptr} {copy : Bool} {n : Nat} {keys keys' : List Key} {m m' : Mem} {b : Bool} (h : insertKey k v none copy n keys m = .ok (b, keys', m'))
    (hp : PlainKeys keys) {R : List Ptr} (ht : ∀ i ∈ m.strings, Ptr.own i ∈ R ∨ Ptr.own i ∈ keys.flatMap Key.strings) :
    PlainKeys keys' ∧ ∀ i ∈ m'.strings, Ptr.own i ∈ R ∨ Ptr.own i ∈ keys'.flatMap Key.strings := by
  unfold insertKey at h
  obtain ⟨⟨k1, m1⟩, h1, h⟩ := bind_ok h
  obtain ⟨⟨v1, m2⟩, h2, h⟩ := bind_ok h
  obtain ⟨r, h3, h⟩ := bind_ok h
  cases h
  have hperm := insert_perm h3
  have hmem : ∀ q, q ∈ keys' ↔ q = ⟨k1, none, n, v1⟩ ∨ q ∈ keys := fun q => by rw [hperm.mem_iff, List.mem_cons]
  refine ⟨fun q hq => ?_, fun i hi => ?_⟩
  · rcases (hmem q).mp hq with rfl | hq
    · rfl
    · exact hp q hq
  · rcases copyIf_strings h2 i hi with hi | hi
    · rcases copyIf_strings h1 i hi with hi | hi
      · refine (ht i hi).imp id fun h => ?_
        obtain ⟨q, hq, h⟩ := List.mem_flatMap.mp h
        exact List.mem_flatMap.mpr ⟨q, (hmem q).mpr (.inr hq), h⟩
      · exact .inr (List.mem_flatMap.mpr ⟨_, (hmem _).mpr (.inl rfl), by simp [Key.strings]; exact .inl hi.symm⟩)
    · exact .inr (List.mem_flatMap.mpr ⟨_, (hmem _).mpr (.inl rfl), by simp [Key.strings]; exact .inr hi.symm⟩)

theorem oldest_plain {m : Mem} {k : Ptr} : ∀ {l : List Key} {acc r : Nat × Option Ptr}, PlainKeys l → acc.2 = none → oldest m k acc l = .ok r → r.2 = none
  | [], acc, r, _, ha, h => by cases h; exact ha
  | e :: l, acc, r, hp, ha, h => by
    unfold oldest at h
    obtain ⟨same, _, h⟩ := bind_ok h
    split at h
    · refine oldest_plain (fun q hq => hp q (List.mem_cons_of_mem _ hq)) ?_ h
      split
      · exact hp e (by simp)
      · exact ha
    · cases h; exact ha

theorem setKey_tight {o : Options} (hmk : o.multiKey = true) {s k v : Ptr} {force copy : Bool} {n : Nat} {keys keys' : List Key} {m m' : Mem} {b : Bool} (hn : m.strings.Nodup)
    (h : setKey o s k v none force copy n keys m = .ok (b, keys', m'))
    (hp : PlainKeys keys) {R : List Ptr} (ht : ∀ i ∈ m.strings, Ptr.own i ∈ R ∨ Ptr.own i ∈ keys.flatMap Key.strings) :
    PlainKeys keys' ∧ ∀ i ∈ m'.strings, Ptr.own i ∈ R ∨ Ptr.own i ∈ keys'.flatMap Key.strings := by
  unfold setKey at h
  obtain ⟨r, hr, h⟩ := bind_ok h
  obtain ⟨found, hf, h⟩ := bind_ok h
  split at h
  · obtain ⟨old, ho, h⟩ := bind_ok h
    have hold : old.2 = none := oldest_plain (fun q hq => hp q (by rw [lower_split hr]; exact List.mem_append_right _ hq)) rfl ho
    obtain ⟨⟨c1, m1⟩, hk, h⟩ := bind_ok h
    rw [hold] at hk
    cases hk
    obtain ⟨_, _, h⟩ := bind_ok h
    obtain ⟨r', hr', h⟩ := bind_ok h
    obtain ⟨⟨m2, l2⟩, hd, h⟩ := bind_ok h
    have hsp := lower_split hr'
    obtain ⟨pre, p1, _, p3⟩ := deleteRun_strings hn hd
    rw [p1] at hsp
    refine insertKey_tight h ?_ ?_
    · intro q hq
      refine hp q ?_
      rw [hsp]
      rcases List.mem_append.mp hq with hq | hq
      · exact List.mem_append_left _ hq
      · exact List.mem_append_right _ (List.mem_append_right _ hq)
    · intro i hi
      obtain ⟨a1, a2⟩ := p3 i hi
      refine (ht i a1).imp id fun hh => ?_
      rw [hsp] at hh
      simp only [List.flatMap_append, List.mem_append] at hh ⊢
      rcases hh with hh | hh | hh
      · exact .inl hh
      · exact absurd hh a2
      · exact .inr hh
  · split at h
    · exact insertKey_tight h hp ht
    · rename_i h1 h2
      cases force <;> cases found <;> simp_all

theorem keys_strings {keys : List Key} (hp : PlainKeys keys) : keys.flatMap Key.ptrs = keys.flatMap Key.strings := by
  induction keys with
  | nil => rfl
  | cons e l ih =>
    rw [List.flatMap_cons, List.flatMap_cons, ih fun q hq => hp q (List.mem_cons_of_mem _ hq)]
    simp [Key.ptrs, hp e (by simp)]

/-- No comments, and no copied string that is not a name or a value. -/
structure Tight (x : Obj) : Prop where
  plain : Plain x
  all : ∀ i ∈ x.mem.strings, Ptr.own i ∈ x.ptrs

theorem mem_ptrs_parts {x : Obj} {p : Ptr} {lo after : List Sect} {e : Sect} (hx : Plain x) (h : x.sections = lo ++ e :: after) :
    p ∈ x.ptrs ↔ p ∈ e.name :: (lo.flatMap Sect.ptrs ++ after.flatMap Sect.ptrs) ∨ p ∈ e.keys.flatMap Key.strings := by
  have he := hx.2 e (by rw [h]; simp)
  rw [(ptrs_perm x h).mem_iff, hx.1, he.1, keys_strings he.2]
  simp only [Option.toList, List.nil_append, List.mem_append, List.mem_cons, List.not_mem_nil, or_false]
  grind

/-- What holds of `m_strings`. -/
def StrOk (m : Mem) : Prop := m.strings.Nodup ∧ ∀ i ∈ m.strings, i < m.next

theorem copyIf_strOk {b : Bool} {m m' : Mem} {p p' : Ptr} (h : copyIf b m p = .ok (p', m')) (hm : StrOk m) : StrOk m' := by
  unfold copyIf at h
  split at h
  · unfold copyString at h
    obtain ⟨t, _, h⟩ := bind_ok h
    cases h
    refine ⟨List.nodup_append.mpr ⟨hm.1, by simp, ?_⟩, ?_⟩
    · intro a ha c hc
      simp only [List.mem_cons, List.not_mem_nil, or_false] at hc
      have := hm.2 a ha
      omega
    · intro i hi
      simp only [List.mem_append, List.mem_cons, List.not_mem_nil, or_false] at hi ⊢
      rcases hi with hi | hi
      · have := hm.2 i hi; omega
      · omega
  · cases h; exact hm

theorem addEntry_tight {o : Options} (hmk : o.multiKey = true) {s : Ptr} {kv : Option (Ptr × Ptr)} {force copy : Bool} {x y : Obj} {b : Bool} (hn : x.mem.strings.Nodup)
    (hb : ∀ i ∈ x.mem.strings, i < x.mem.next)
    (h : addEntry o s kv none force copy x = .ok (b, y)) (hx : Tight x) : Tight y := by
  obtain ⟨hpl, hall⟩ := hx
  unfold addEntry at h
  obtain ⟨⟨c, m⟩, h1, h⟩ := bind_ok h
  cases h1
  simp only at h
  unfold addEntryRest at h
  obtain ⟨r, hr, h⟩ := bind_ok h
  obtain ⟨found, hf, h⟩ := bind_ok h
  have hsp : x.sections = r.1 ++ r.2 := lower_split hr
  split at h
  · rename_i e after hr2
    rw [hr2] at hsp
    split at h
    · cases h; exact ⟨hpl, hall⟩
    · rename_i k v
      obtain ⟨⟨b', keys', m'⟩, hq, h⟩ := bind_ok h
      cases h
      have he := hpl.2 e (by rw [hsp]; simp)
      obtain ⟨t1, t2⟩ := setKey_tight hmk hn hq he.2 (R := e.name :: (r.1.flatMap Sect.ptrs ++ after.flatMap Sect.ptrs))
        fun i hi => (mem_ptrs_parts hpl hsp).mp (hall i hi)
      have hp' : Plain { x with mem := m', order := x.order + 1, sections := r.1 ++ { e with keys := keys' } :: after } := by
        refine ⟨hpl.1, fun e' he' => ?_⟩
        simp only [List.mem_append, List.mem_cons] at he'
        rcases he' with he' | rfl | he'
        · exact hpl.2 e' (by rw [hsp]; exact List.mem_append_left _ he')
        · exact ⟨he.1, t1⟩
        · exact hpl.2 e' (by rw [hsp]; exact List.mem_append_right _ (List.mem_cons_of_mem _ he'))
      exact ⟨hp', fun i hi => (mem_ptrs_parts hp' rfl).mpr (t2 i hi)⟩
  · obtain ⟨⟨s1, m1⟩, hs1, h⟩ := bind_ok h
    simp only at h
    have hcs := copyIf_strings hs1
    have hold : ∀ i ∈ m1.strings, Ptr.own i ∈ s1 :: (r.1.flatMap Sect.ptrs ++ r.2.flatMap Sect.ptrs) := by
      intro i hi
      rcases hcs i hi with hi | hi
      · have := hall i hi
        unfold Obj.ptrs at this
        rw [hpl.1, hsp] at this
        simp only [Option.toList, List.nil_append, List.flatMap_append] at this
        exact List.mem_cons_of_mem _ this
      · rw [hi]; simp
    have hplain : ∀ (m : Mem) (j n : Nat) (keys : List Key), PlainKeys keys → Plain { x with mem := m, order := j, sections := r.1 ++ ⟨s1, none, n, keys⟩ :: r.2 } := by
      intro m j n keys hk
      refine ⟨hpl.1, fun e' he' => ?_⟩
      simp only [List.mem_append, List.mem_cons] at he'
      rcases he' with he' | rfl | he'
      · exact hpl.2 e' (by rw [hsp]; exact List.mem_append_left _ he')
      · exact ⟨rfl, hk⟩
      · exact hpl.2 e' (by rw [hsp]; exact List.mem_append_right _ he')
    split at h
    · cases h
      have hp' := hplain m1 (x.order + 1) (x.order + 1) [] (by simp [PlainKeys])
      exact ⟨hp', fun i hi => (mem_ptrs_parts hp' rfl).mpr (.inl (hold i hi))⟩
    · rename_i k v
      obtain ⟨⟨b', keys', m'⟩, hq, h⟩ := bind_ok h
      cases h
      have hn1 := (copyIf_strOk hs1 ⟨hn, hb⟩).1
      obtain ⟨t1, t2⟩ := setKey_tight hmk hn1 hq (by simp [PlainKeys]) (R := s1 :: (r.1.flatMap Sect.ptrs ++ r.2.flatMap Sect.ptrs)) fun i hi => .inl (hold i hi)
      have hp' := hplain m' (x.order + 2) (x.order + 1) keys' t1
      exact ⟨hp', fun i hi => (mem_ptrs_parts hp' rfl).mpr (t2 i hi)⟩

theorem insertKey_strOk {k v : Ptr} {c : Option Ptr} {copy : Bool} {n : Nat} {keys : List Key} {m : Mem} {r : Bool × List Key × Mem} (h : insertKey k v c copy n keys m = .ok r)
    (hm : StrOk m) : StrOk r.2.2 := by
  unfold insertKey at h
  obtain ⟨⟨k1, m1⟩, h1, h⟩ := bind_ok h
  obtain ⟨⟨v1, m2⟩, h2, h⟩ := bind_ok h
  obtain ⟨_, _, h⟩ := bind_ok h
  cases h
  exact copyIf_strOk h2 (copyIf_strOk h1 hm)

theorem addEntry_strOk {o : Options} (hmk : o.multiKey = true) {s : Ptr} {kv : Option (Ptr × Ptr)} {copy : Bool} {x y : Obj} {b : Bool}
    (h : addEntry o s kv none false copy x = .ok (b, y)) (hm : StrOk x.mem) : StrOk y.mem := by
  have hset : ∀ {k v : Ptr} {s n keys m r}, setKey o s k v none false copy n keys m = .ok r → StrOk m → StrOk r.2.2 := by
    intro k v s n keys m r h hm
    unfold setKey at h
    obtain ⟨_, _, h⟩ := bind_ok h
    obtain ⟨_, _, h⟩ := bind_ok h
    rw [if_neg (by simp), if_pos (by simp [hmk])] at h
    exact insertKey_strOk h hm
  unfold addEntry at h
  obtain ⟨⟨c, m⟩, h1, h⟩ := bind_ok h
  cases h1
  simp only at h
  unfold addEntryRest at h
  obtain ⟨r, hr, h⟩ := bind_ok h
  obtain ⟨found, hf, h⟩ := bind_ok h
  split at h
  · split at h
    · cases h; exact hm
    · obtain ⟨q, hq, h⟩ := bind_ok h
      cases h
      exact hset hq hm
  · obtain ⟨⟨s1, m1⟩, hs1, h⟩ := bind_ok h
    simp only at h
    have := copyIf_strOk hs1 hm
    split at h
    · cases h; exact this
    · obtain ⟨q, hq, h⟩ := bind_ok h
      cases h
      exact hset hq this

theorem addAll_tight {o : Options} (hmk : o.multiKey = true) {b : Nat} {copy : Bool} : ∀ {l : List Found} {x y : Obj}, (∀ f ∈ l, f.comment = none) → addAll o b copy x l = .ok y →
    StrOk x.mem → Tight x → Tight y
  | [], x, y, _, h, _, hx => by cases h; exact hx
  | f :: l, x, y, hl, h, hm, hx => by
    unfold addAll at h
    obtain ⟨r, hr, h⟩ := bind_ok h
    rw [hl f (by simp)] at hr
    exact addAll_tight hmk (fun g hg => hl g (List.mem_cons_of_mem _ hg)) h (addEntry_strOk hmk hr hm) (addEntry_tight hmk hm.1 hm.2 hr hx)

/-- Neither of the characters that begin a comment. -/
def NoMark (t : Bytes) : Prop := ∀ c ∈ t, c ≠ 35 ∧ c ≠ 59

theorem NoMark.sub {a b : Bytes} (h : NoMark b) (hs : ∀ c ∈ a, c ∈ b) : NoMark a := fun c hc => h c (hs c hc)

theorem NoMark.starts {t : Bytes} (h : NoMark t) : startsComment t = false := by
  cases t with
  | nil => rfl
  | cons c t =>
    have := h c (by simp)
    unfold startsComment isComment
    simp only [Bool.or_eq_false_iff, beq_eq_false_iff_ne]
    exact ⟨this.2, this.1⟩

theorem deleteSection_tight {x y : Obj} {m : Mem} {before after : List Sect} {e : Sect} {b : Bool} (hn : m.strings.Nodup) (h : deleteSection m before e after x = .ok (b, y))
    (hpl : Plain x) (hsp : x.sections = before ++ e :: after)
    (hall : ∀ i ∈ m.strings, Ptr.own i ∈ e.name :: (before.flatMap Sect.ptrs ++ after.flatMap Sect.ptrs)) : Tight y := by
  unfold deleteSection at h
  obtain ⟨m1, h1, h⟩ := bind_ok h
  cases h
  obtain ⟨_, s1⟩ := deleteString_strings hn h1
  have hp : Plain { x with mem := m1, sections := before ++ after } := by
    refine ⟨hpl.1, fun e' he' => hpl.2 e' ?_⟩
    simp only at he'
    rw [hsp]
    rcases List.mem_append.mp he' with he' | he'
    · exact List.mem_append_left _ he'
    · exact List.mem_append_right _ (List.mem_cons_of_mem _ he')
  refine ⟨hp, fun i hi => ?_⟩
  obtain ⟨a1, a2⟩ := s1 i hi
  unfold Obj.ptrs
  rw [hp.1]
  simp only [Option.toList, List.nil_append, List.flatMap_append]
  rcases List.mem_cons.mp (hall i a1) with h | h
  · exact absurd h.symm a2
  · exact h

theorem delete_tight {s : Ptr} {k : Option Ptr} {removeEmpty : Bool} {x y : Obj} {b : Bool} (hn : x.mem.strings.Nodup)
    (h : delete s k removeEmpty x = .ok (b, y)) (hx : Tight x) : Tight y := by
  obtain ⟨hpl, hall⟩ := hx
  unfold delete at h
  obtain ⟨r, hr, h⟩ := bind_ok h
  obtain ⟨found, hf, h⟩ := bind_ok h
  have hsp : x.sections = r.1 ++ r.2 := lower_split hr
  split at h
  · rename_i e after hr2
    rw [hr2] at hsp
    have he := hpl.2 e (by rw [hsp]; simp)
    split at h
    · obtain ⟨m, hd, h⟩ := bind_ok h
      obtain ⟨n1, s1⟩ := deleteAll_strings hn hd
      refine deleteSection_tight n1 h hpl hsp fun i hi => ?_
      obtain ⟨a1, a2⟩ := s1 i hi
      exact ((mem_ptrs_parts hpl hsp).mp (hall i a1)).resolve_right a2
    · obtain ⟨q, hq, h⟩ := bind_ok h
      obtain ⟨fk, _, h⟩ := bind_ok h
      have hqs := lower_split hq
      split at h
      · obtain ⟨⟨m1, l1⟩, hd, h⟩ := bind_ok h
        obtain ⟨pre, p1, n1, p3⟩ := deleteRun_strings hn hd
        rw [p1] at hqs
        have hrest : ∀ i ∈ m1.strings, Ptr.own i ∈ e.name :: (r.1.flatMap Sect.ptrs ++ after.flatMap Sect.ptrs) ∨ Ptr.own i ∈ (q.1 ++ l1).flatMap Key.strings := by
          intro i hi
          obtain ⟨a1, a2⟩ := p3 i hi
          refine ((mem_ptrs_parts hpl hsp).mp (hall i a1)).imp id fun hh => ?_
          rw [hqs] at hh
          simp only [List.flatMap_append, List.mem_append] at hh ⊢
          rcases hh with hh | hh | hh
          · exact .inl hh
          · exact absurd hh a2
          · exact .inr hh
        split at h
        · cases h
          have hp' : Plain { x with mem := m1, sections := r.1 ++ { e with keys := q.1 ++ l1 } :: after } := by
            refine ⟨hpl.1, fun e' he' => ?_⟩
            simp only [List.mem_append, List.mem_cons] at he'
            rcases he' with he' | rfl | he'
            · exact hpl.2 e' (by rw [hsp]; exact List.mem_append_left _ he')
            · refine ⟨he.1, fun w hw => he.2 w ?_⟩
              rw [hqs]
              simp only [List.mem_append] at hw ⊢
              exact hw.imp id .inr
            · exact hpl.2 e' (by rw [hsp]; exact List.mem_append_right _ (List.mem_cons_of_mem _ he'))
          exact ⟨hp', fun i hi => (mem_ptrs_parts hp' rfl).mpr (hrest i hi)⟩
        · rename_i hemp
          refine deleteSection_tight n1 h hpl hsp fun i hi => ?_
          have hnil : q.1 ++ l1 = [] := by
            simp only [Bool.or_eq_true, decide_eq_true_eq, not_or, ne_eq, Decidable.not_not] at hemp
            exact hemp.2
          rw [hnil] at hrest
          exact (hrest i hi).resolve_right (by simp)
      · cases h; exact ⟨hpl, hall⟩
  · cases h; exact ⟨hpl, hall⟩

theorem skipNewLine_mem {r : Bytes} {c : UInt8} (h : c ∈ skipNewLine r) : c ∈ r := by
  unfold skipNewLine at h
  split at h
  · simp_all
  · simp_all
  · exact h

theorem taggedText_mem (tag : Bytes) : ∀ (fuel : Nat) (acc t : Bytes) (p : Option Bytes × Bytes), IniStore.taggedText tag fuel acc t = some p → ∀ c ∈ p.2, c ∈ t
  | 0, acc, t, p, h => by cases h; exact fun c h => h
  | fuel + 1, acc, t, p, h => by
    have hd : ∀ c ∈ skipNewLine (t.dropWhile fun c => !isNL c), c ∈ t := fun c hc => (List.dropWhile_sublist _).subset (skipNewLine_mem hc)
    rw [IniStore.taggedText] at h
    split at h
    · split at h
      · split at h
        · cases h
        · cases h; exact hd
      · cases h; exact hd
    · split at h
      · cases h; simp
      · exact fun c hc => hd c (taggedText_mem tag fuel _ _ p h c hc)

theorem findEvery_noMark (o : Options) (copy : Bool) : ∀ (fuel : Nat) (place : IniStore.Place) (t : Bytes), NoMark t → ∀ f ∈ IniStore.findEvery o copy fuel place none t, f.comment = none
  | 0, place, t, _, f, hf => by cases hf
  | fuel + 1, place, t, ht, f, hf => by
    have hd : NoMark (t.dropWhile isSp) := ht.sub fun c hc => (List.dropWhile_sublist _).subset hc
    rw [IniStore.findEvery] at hf
    simp only at hf
    rw [if_neg (by rw [hd.starts]; simp)] at hf
    have hrest : NoMark (step (t.dropWhile isSp)).rest := hd.sub fun c hc => IniStore.step_rest_mem hc
    split at hf
    · cases hf
    · rename_i r hs
      rw [hs] at hrest
      exact findEvery_noMark o copy fuel place r hrest f hf
    · rename_i r hs
      rw [hs] at hrest
      exact findEvery_noMark o copy fuel _ r hrest f hf
    · rename_i n r hs
      rw [hs] at hrest
      rcases List.mem_cons.mp hf with rfl | hf
      · rfl
      · exact findEvery_noMark o copy fuel _ r hrest f hf
    · rename_i k v r hs
      rw [hs] at hrest
      split at hf
      · split at hf
        · cases hf
        · rename_i r' htag
          rcases List.mem_cons.mp hf with rfl | hf
          · rfl
          · exact findEvery_noMark o copy fuel _ r' (hrest.sub fun c hc => taggedText_mem _ _ _ _ _ htag c hc) f hf
        · rename_i v' r' htag
          rcases List.mem_cons.mp hf with rfl | hf
          · rfl
          · exact findEvery_noMark o copy fuel _ r' (hrest.sub fun c hc => taggedText_mem _ _ _ _ _ htag c hc) f hf
      · rcases List.mem_cons.mp hf with rfl | hf
        · rfl
        · exact findEvery_noMark o copy fuel _ r hrest f hf

theorem load_tight {o : Options} (hmk : o.multiKey = true) {s : Bytes} {x y : Obj} (hs : NoMark s) (h : load o s x = .ok y) (hm : StrOk x.mem) (hx : Tight x) : Tight y := by
  unfold load at h
  split at h
  · cases h; exact hx
  · simp only at h
    have ht : NoMark (cut (IniStore.dropMark o s)) := by
      refine hs.sub fun c hc => ?_
      have := (List.takeWhile_sublist _).subset hc
      unfold IniStore.dropMark at this
      split at this
      · exact List.mem_of_mem_drop this
      · exact this
    have hfc : findFileComment x.mem.next x.mem.data.isSome (cut (IniStore.dropMark o s)) { x with mem := { x.mem with blocks := x.mem.next :: x.mem.blocks, next := x.mem.next + 1 } }
        = .ok ({ x with mem := { x.mem with blocks := x.mem.next :: x.mem.blocks, next := x.mem.next + 1 } }, cut (IniStore.dropMark o s)) := by
      unfold findFileComment
      simp only [hx.plain.1]
      rw [if_neg (by rw [ht.starts]; simp)]
    obtain ⟨r, hr, h⟩ := bind_ok h
    rw [hfc] at hr
    cases hr
    obtain ⟨z, hz, h⟩ := bind_ok h
    obtain ⟨m, hk, h⟩ := bind_ok h
    cases h
    have hzt : Tight z := addAll_tight hmk (findEvery_noMark o _ _ _ _ ht) hz ⟨hm.1, fun i hi => Nat.lt_succ_of_lt (hm.2 i hi)⟩ ⟨hx.plain, hx.all⟩
    have hms : m.strings = z.mem.strings := by
      unfold keepBlock at hk
      split at hk
      · split at hk
        · cases hk; rfl
        · cases hk
      · cases hk; rfl
    exact ⟨hzt.plain, fun i hi => hzt.all i (hms ▸ hi)⟩

theorem reset_tight {x y : Obj} (h : reset x = .ok y) : Tight y := by
  unfold reset at h
  obtain ⟨m1, _, h⟩ := bind_ok h
  obtain ⟨m2, _, h⟩ := bind_ok h
  cases h
  exact ⟨⟨rfl, by simp⟩, by simp⟩

end Licensecc.IniHeap
