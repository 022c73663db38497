import Verif.Spec.IniStore
import Verif.Props.Ini
import Verif.Props.IniMem
/-!
# Lemmas about INI objects
-/
namespace Licensecc.IniStore
open Ini IniMem Spec Spec.IniStore

/-! ## The order of names -/

theorem less_asymm {a b : Bytes} (h : less a b = true) : less b a = false := by
  cases hb : less b a with
  | false => rfl
  | true => have := C65_order_trans h hb; rw [C65_order_irrefl] at this; cases this

theorem same_iff {a b : Bytes} : sameName a b = true ↔ less a b = false ∧ less b a = false := by
  rw [sameName_iff, ← C65_order_same]

theorem less_or (a b : Bytes) : less a b = true ∨ sameName a b = true ∨ less b a = true := by
  rw [same_iff]
  cases less a b <;> cases less b a <;> simp

theorem less_not_same {a b : Bytes} (h : less a b = true) : sameName a b = false := by
  cases hs : sameName a b with
  | false => rfl
  | true => rw [(same_iff.mp hs).1] at h; cases h

theorem less_not_same' {a b : Bytes} (h : less a b = true) : sameName b a = false := by
  rw [sameName_comm]; exact less_not_same h

theorem same_symm {a b : Bytes} (h : sameName a b = true) : sameName b a = true := by rw [sameName_comm]; exact h

theorem same_congr_right {b c : Bytes} (h : sameName b c = true) (a : Bytes) : sameName a b = sameName a c := by
  rw [sameName_comm a b, sameName_comm a c]; exact sameName_trans h a

theorem less_same_left {a a' : Bytes} (h : sameName a a' = true) (b : Bytes) : less a b = less a' b := by
  have key : ∀ {a a' : Bytes}, sameName a a' = true → less a b = true → less a' b = true := by
    intro a a' h h1
    rcases less_or a' b with h2 | h2 | h2
    · exact h2
    · rw [← sameName_trans h b] at h2; rw [less_not_same h1] at h2; cases h2
    · have := C65_order_trans h1 h2; rw [(same_iff.mp h).1] at this; cases this
  cases h1 : less a b with
  | true => exact (key h h1).symm
  | false =>
    cases h2 : less a' b with
    | false => rfl
    | true => rw [key (same_symm h) h2] at h1; cases h1

theorem less_same_right {b b' : Bytes} (h : sameName b b' = true) (a : Bytes) : less a b = less a b' := by
  have key : ∀ {b b' : Bytes}, sameName b b' = true → less a b = true → less a b' = true := by
    intro b b' h h1
    rcases less_or a b' with h2 | h2 | h2
    · exact h2
    · rw [← same_congr_right h a] at h2; rw [less_not_same h1] at h2; cases h2
    · have := C65_order_trans h2 h1; rw [(same_iff.mp h).2] at this; cases this
  cases h1 : less a b with
  | true => exact (key h h1).symm
  | false =>
    cases h2 : less a b' with
    | false => rfl
    | true => rw [key (same_symm h) h2] at h1; cases h1

/-- `a` is not greater than `b`. -/
abbrev Le (a b : Bytes) : Prop := less b a = false

theorem le_trans {a b c : Bytes} (h1 : Le a b) (h2 : Le b c) : Le a c := by
  unfold Le at *
  cases h : less c a with
  | false => rfl
  | true =>
    rcases less_or b a with h3 | h3 | h3
    · rw [h3] at h1; cases h1
    · rw [← less_same_right h3 c] at h; rw [h] at h2; cases h2
    · have := C65_order_trans h h3; rw [this] at h2; cases h2

theorem le_of_less {a b : Bytes} (h : less a b = true) : Le a b := less_asymm h

theorem less_of_less_le {a b c : Bytes} (h1 : less a b = true) (h2 : Le b c) : less a c = true := by
  unfold Le at *
  rcases less_or a c with h | h | h
  · exact h
  · rw [less_same_left h b] at h1; rw [h1] at h2; cases h2
  · have := C65_order_trans h h1; rw [this] at h2; cases h2

theorem less_of_le_less {a b c : Bytes} (h1 : Le a b) (h2 : less b c = true) : less a c = true := by
  unfold Le at *
  rcases less_or a c with h | h | h
  · exact h
  · rw [less_same_right (same_symm h) b] at h2; rw [h2] at h1; cases h1
  · have := C65_order_trans h2 h; rw [this] at h1; cases h1

/-! ## Sorted lists -/

section
variable {α : Type} (name : α → Bytes)

theorem insertBy_nil (x : α) : insertBy name x [] = [x] := rfl

theorem insertBy_cons (x e : α) (l : List α) :
    insertBy name x (e :: l) = if less (name x) (name e) then x :: e :: l else e :: insertBy name x l := by
  unfold insertBy
  by_cases h : less (name x) (name e) = true
  · simp [h]
  · simp [h]

theorem insertBy_perm (x : α) (l : List α) : (insertBy name x l).Perm (x :: l) := by
  induction l with
  | nil => exact .rfl
  | cons e l ih =>
    rw [insertBy_cons]
    split
    · exact .rfl
    · exact (ih.cons e).trans (.swap x e l)

theorem mem_insertBy {x y : α} {l : List α} : y ∈ insertBy name x l ↔ y = x ∨ y ∈ l := by
  rw [(insertBy_perm name x l).mem_iff, List.mem_cons]

theorem length_insertBy (x : α) (l : List α) : (insertBy name x l).length = l.length + 1 := (insertBy_perm name x l).length_eq

/-- Sorted by name, equal names allowed. -/
abbrev SortedW (l : List α) : Prop := l.Pairwise fun a b => Le (name a) (name b)
/-- Sorted by name, names distinct. -/
abbrev SortedS (l : List α) : Prop := l.Pairwise fun a b => less (name a) (name b) = true

theorem insertBy_sortedW {x : α} {l : List α} (h : SortedW name l) : SortedW name (insertBy name x l) := by
  induction l with
  | nil => simp [insertBy_nil, SortedW]
  | cons e l ih =>
    rw [insertBy_cons]
    obtain ⟨h1, h2⟩ := List.pairwise_cons.mp h
    split
    · rename_i hx
      refine List.pairwise_cons.mpr ⟨?_, h⟩
      intro y hy
      rcases List.mem_cons.mp hy with rfl | hy
      · exact le_of_less hx
      · exact le_trans (le_of_less hx) (h1 y hy)
    · rename_i hx
      refine List.pairwise_cons.mpr ⟨?_, ih h2⟩
      intro y hy
      rcases (mem_insertBy name).mp hy with rfl | hy
      · exact by simpa using hx
      · exact h1 y hy

theorem insertBy_sortedS {x : α} {l : List α} (h : SortedS name l) (hx : ∀ e ∈ l, sameName (name e) (name x) = false) :
    SortedS name (insertBy name x l) := by
  induction l with
  | nil => simp [insertBy_nil, SortedS]
  | cons e l ih =>
    rw [insertBy_cons]
    obtain ⟨h1, h2⟩ := List.pairwise_cons.mp h
    split
    · rename_i hxe
      refine List.pairwise_cons.mpr ⟨?_, h⟩
      intro y hy
      rcases List.mem_cons.mp hy with rfl | hy
      · exact hxe
      · exact C65_order_trans hxe (h1 y hy)
    · rename_i hxe
      refine List.pairwise_cons.mpr ⟨?_, ih h2 fun y hy => hx y (by simp [hy])⟩
      intro y hy
      rcases (mem_insertBy name).mp hy with rfl | hy
      · rcases less_or (name e) (name y) with h3 | h3 | h3
        · exact h3
        · rw [hx e (by simp)] at h3; cases h3
        · exact absurd h3 hxe
      · exact h1 y hy

/-- Elements named like the new one stay in front of it. -/
theorem filter_insertBy_same {x : α} {k : Bytes} {l : List α} (h : SortedW name l) (hx : sameName (name x) k = true) :
    (insertBy name x l).filter (fun e => sameName (name e) k) = l.filter (fun e => sameName (name e) k) ++ [x] := by
  induction l with
  | nil => simp [insertBy_nil, hx]
  | cons e l ih =>
    rw [insertBy_cons]
    obtain ⟨h1, h2⟩ := List.pairwise_cons.mp h
    split
    · rename_i hxe
      have hall : ∀ y ∈ e :: l, sameName (name y) k = false := by
        intro y hy
        have hlt : less (name x) (name y) = true := by
          rcases List.mem_cons.mp hy with rfl | hy
          · exact hxe
          · exact less_of_less_le hxe (h1 y hy)
        rw [← same_congr_right hx]
        exact less_not_same' hlt
      have : (e :: l).filter (fun e => sameName (name e) k) = [] := by
        rw [List.filter_eq_nil_iff]
        intro y hy; simp [hall y hy]
      rw [List.filter_cons, hx, if_pos rfl, this]
      rfl
    · rw [List.filter_cons, List.filter_cons, ih h2]
      split <;> rfl

theorem filter_insertBy_other {x : α} {p : α → Bool} {l : List α} (hx : p x = false) :
    (insertBy name x l).filter p = l.filter p := by
  unfold insertBy
  rw [List.filter_append, List.filter_cons, hx, if_neg (by simp), ← List.filter_append, List.takeWhile_append_dropWhile]

theorem find_insertBy_same {x : α} {k : Bytes} {l : List α} (hx : sameName (name x) k = true)
    (hl : l.find? (fun e => sameName (name e) k) = none) :
    (insertBy name x l).find? (fun e => sameName (name e) k) = some x := by
  unfold insertBy
  rw [List.find?_eq_none] at hl
  rw [List.find?_append, List.find?_eq_none.mpr]
  · simp [hx]
  · intro y hy
    exact hl y ((List.takeWhile_sublist _).subset hy)

theorem find_insertBy_other {x : α} {p : α → Bool} {l : List α} (hx : p x = false) :
    (insertBy name x l).find? p = l.find? p := by
  unfold insertBy
  rw [List.find?_append, List.find?_cons, hx, ← List.find?_append, List.takeWhile_append_dropWhile]

end

/-! ## Finding sections -/

/-- The keys of a section, none if there is no such section. -/
def keysOf (st : Store) (s : Bytes) : List Key := ((findSection st s).map (·.keys)).getD []

theorem findSection_congr (st : Store) {s s' : Bytes} (h : sameName s s' = true) : findSection st s = findSection st s' := by
  unfold findSection
  congr 1
  funext e
  exact same_congr_right h e.name

theorem findSection_same {st : Store} {s : Bytes} {e : Sect} (h : findSection st s = some e) :
    sameName e.name s = true ∧ e ∈ st.sections := ⟨by have := List.find?_some h; simpa using this, List.mem_of_find?_eq_some h⟩

theorem find_onSection (s s' : Bytes) (f : List Key → List Key) (l : List Sect) :
    (onSection s f l).find? (fun e => sameName e.name s')
      = (l.find? (fun e => sameName e.name s')).map fun e => if sameName s s' then { e with keys := f e.keys } else e := by
  unfold onSection
  rw [List.find?_map]
  have : ((fun e : Sect => sameName e.name s') ∘ fun e => if sameName e.name s then { e with keys := f e.keys } else e)
      = fun e => sameName e.name s' := by
    funext e
    simp only [Function.comp]
    split <;> rfl
  rw [this]
  cases h : l.find? (fun e => sameName e.name s') with
  | none => rfl
  | some e =>
    have hs : sameName e.name s' = true := by have := List.find?_some h; simpa using this
    simp only [Option.map_some]
    have hc : sameName e.name s = sameName s s' := by rw [sameName_comm s s']; exact sameName_trans hs s
    rw [hc]

theorem find_filter_not (s s' : Bytes) (l : List Sect) :
    (l.filter fun e => !sameName e.name s).find? (fun e => sameName e.name s')
      = if sameName s s' then none else l.find? (fun e => sameName e.name s') := by
  induction l with
  | nil => simp
  | cons e l ih =>
    rw [List.filter_cons]
    by_cases h1 : sameName e.name s = true
    · rw [if_neg (by simp [h1]), ih, List.find?_cons]
      have hc : sameName e.name s' = sameName s s' := sameName_trans h1 s'
      rw [hc]
      cases sameName s s' <;> simp
    · rw [if_pos (by simpa using h1), List.find?_cons, List.find?_cons, ih]
      cases h2 : sameName e.name s' with
      | false => rfl
      | true =>
        have h3 : sameName s s' = false := by
          cases h3 : sameName s s' with
          | false => rfl
          | true => rw [same_congr_right (same_symm h3)] at h2; exact absurd h2 h1
        simp [h3]

theorem findSection_addSection (s : Bytes) (c : Option Bytes) (st : Store) (s' : Bytes) :
    findSection (addSection s c st).2 s'
      = if sameName s s' = true ∧ findSection st s = none then some ⟨s, c, st.order + 1, []⟩ else findSection st s' := by
  unfold addSection
  cases h : findSection st s with
  | some e => simp
  | none =>
    by_cases hs : sameName s s' = true
    · rw [if_pos ⟨hs, rfl⟩]
      unfold findSection
      refine find_insertBy_same Sect.name hs ?_
      rw [findSection_congr st hs] at h
      exact h
    · rw [if_neg (by simp [hs])]
      unfold findSection
      exact find_insertBy_other Sect.name (by simpa using hs)

theorem addSection_fst (s : Bytes) (c : Option Bytes) (st : Store) : (addSection s c st).1 = (findSection st s).isNone := by
  unfold addSection
  cases findSection st s <;> rfl

theorem keysOf_addSection (s : Bytes) (c : Option Bytes) (st : Store) (s' : Bytes) : keysOf (addSection s c st).2 s' = keysOf st s' := by
  unfold keysOf
  rw [findSection_addSection]
  split
  · rename_i h
    rw [← findSection_congr st h.1, h.2]
    rfl
  · rfl

theorem keysOf_congr (st : Store) {s s' : Bytes} (h : sameName s s' = true) : keysOf st s = keysOf st s' := by
  unfold keysOf; rw [findSection_congr st h]

/-- The section found behind `addEntry` with a key. -/
theorem findSection_addEntry (o : Options) (s k v : Bytes) (c : Option Bytes) (force : Bool) (st : Store) (s' : Bytes) :
    findSection (addEntry o s (some (k, v)) c force st).2 s'
      = (findSection (addSection s none st).2 s').map fun e =>
          if sameName s s' then { e with keys := (setKey o k v c force ((addSection s none st).2.order + 1) (keysOf st s)).2 } else e := by
  unfold addEntry
  simp only [Option.isNone_some, Bool.false_eq_true, if_false]
  unfold findSection
  rw [find_onSection]
  have : ((List.find? (fun e => sameName e.name s) (addSection s none st).2.sections).map (·.keys)).getD [] = keysOf st s :=
    keysOf_addSection s none st s
  rw [this]

theorem keysOf_addEntry (o : Options) (s k v : Bytes) (c : Option Bytes) (force : Bool) (st : Store) (s' : Bytes) :
    keysOf (addEntry o s (some (k, v)) c force st).2 s'
      = if sameName s s' then (setKey o k v c force ((addSection s none st).2.order + 1) (keysOf st s)).2 else keysOf st s' := by
  have h0 := keysOf_addSection s none st s'
  unfold keysOf at h0 ⊢
  rw [findSection_addEntry]
  have hsome : sameName s s' = true → (findSection (addSection s none st).2 s').isSome := by
    intro hs
    rw [findSection_addSection]
    split
    · rfl
    · rename_i hn
      rw [← findSection_congr st hs]
      cases h : findSection st s with
      | none => exact absurd ⟨hs, h⟩ hn
      | some e => rfl
  cases hs : sameName s s' with
  | false => simpa using h0
  | true =>
    obtain ⟨e, he⟩ := Option.isSome_iff_exists.mp (hsome hs)
    rw [he]
    rfl

/-! ## The invariant -/

/-- The keys of a section: sorted, distinct names unless several values are allowed, load orders distinct and increasing among the values of a key. -/
structure KeysOk (o : Options) (n : Nat) (keys : List Key) : Prop where
  sorted : SortedW Key.name keys
  strict : o.multiKey = false → SortedS Key.name keys
  bound : ∀ k ∈ keys, k.order ≤ n
  orders : keys.Pairwise fun a b => a.order ≠ b.order
  groups : keys.Pairwise fun a b => sameName a.name b.name = true → a.order < b.order

/-- What holds of every object. -/
structure Inv (o : Options) (st : Store) : Prop where
  sorted : SortedS Sect.name st.sections
  bound : ∀ s ∈ st.sections, s.order ≤ st.order
  orders : st.sections.Pairwise fun a b => a.order ≠ b.order
  keys : ∀ s ∈ st.sections, KeysOk o st.order s.keys

theorem KeysOk.mono {o : Options} {n m : Nat} {keys : List Key} (h : KeysOk o n keys) (hm : n ≤ m) : KeysOk o m keys :=
  ⟨h.sorted, h.strict, fun k hk => Nat.le_trans (h.bound k hk) hm, h.orders, h.groups⟩

theorem KeysOk.filter {o : Options} {n : Nat} {keys : List Key} (h : KeysOk o n keys) (p : Key → Bool) : KeysOk o n (keys.filter p) :=
  ⟨h.sorted.filter p, fun hm => (h.strict hm).filter p, fun k hk => h.bound k (List.mem_filter.mp hk).1, h.orders.filter p, h.groups.filter p⟩

theorem pairwise_insertBy {α : Type} (name : α → Bytes) {R : α → α → Prop} {x : α} {l : List α} (hl : l.Pairwise R)
    (h1 : ∀ e ∈ l, Le (name e) (name x) → R e x) (h2 : ∀ e ∈ l, less (name x) (name e) = true → R x e) (hs : SortedW name l) :
    (insertBy name x l).Pairwise R := by
  induction l with
  | nil => simp [insertBy_nil]
  | cons e l ih =>
    obtain ⟨a1, a2⟩ := List.pairwise_cons.mp hl
    obtain ⟨b1, b2⟩ := List.pairwise_cons.mp hs
    rw [insertBy_cons]
    split
    · rename_i hx
      refine List.pairwise_cons.mpr ⟨?_, hl⟩
      intro y hy
      refine h2 y hy ?_
      rcases List.mem_cons.mp hy with rfl | hy
      · exact hx
      · exact less_of_less_le hx (b1 y hy)
    · rename_i hx
      refine List.pairwise_cons.mpr ⟨?_, ih a2 (fun y hy => h1 y (by simp [hy])) (fun y hy => h2 y (by simp [hy])) b2⟩
      intro y hy
      rcases (mem_insertBy name).mp hy with rfl | hy
      · exact h1 e (by simp) (by simpa using hx)
      · exact a1 y hy

/-- Inserting a key with a load order that is new, larger than those of the keys of its name. -/
theorem KeysOk.insert {o : Options} {n : Nat} {keys : List Key} (h : KeysOk o n keys) (x : Key) (hx : x.order ≤ n)
    (hnew : ∀ e ∈ keys, e.order ≠ x.order) (hlater : ∀ e ∈ keys, sameName e.name x.name = true → e.order < x.order)
    (hone : o.multiKey = false → ∀ e ∈ keys, sameName e.name x.name = false) : KeysOk o n (insertBy Key.name x keys) := by
  refine ⟨insertBy_sortedW _ h.sorted, fun hm => insertBy_sortedS _ (h.strict hm) (hone hm), ?_, ?_, ?_⟩
  · intro k hk
    rcases (mem_insertBy _).mp hk with rfl | hk
    · exact hx
    · exact h.bound k hk
  · exact pairwise_insertBy _ h.orders (fun e he _ => hnew e he) (fun e he _ => (hnew e he).symm) h.sorted
  · refine pairwise_insertBy _ h.groups (fun e he _ hs => hlater e he hs) (fun e he hl hs => ?_) h.sorted
    rw [less_not_same hl] at hs; cases hs

theorem mem_keysNamed {k : Bytes} {keys : List Key} {e : Key} : e ∈ keysNamed k keys ↔ e ∈ keys ∧ sameName e.name k = true := by
  unfold keysNamed; rw [List.mem_filter]

theorem mem_keysNotNamed {k : Bytes} {keys : List Key} {e : Key} : e ∈ keysNotNamed k keys ↔ e ∈ keys ∧ sameName e.name k = false := by
  unfold keysNotNamed; rw [List.mem_filter]; simp

theorem keysNamed_eq_nil {k : Bytes} {keys : List Key} : keysNamed k keys = [] ↔ ∀ e ∈ keys, sameName e.name k = false := by
  unfold keysNamed; rw [List.filter_eq_nil_iff]; simp

theorem keysNamed_congr {k k' : Bytes} (h : sameName k k' = true) (keys : List Key) : keysNamed k keys = keysNamed k' keys := by
  unfold keysNamed
  congr 1
  funext e
  exact same_congr_right h e.name

/-- The first of the keys of a name is the oldest. -/
theorem oldest_cons {n : Nat} {e : Key} {l : List Key} (h : (e :: l).Pairwise fun a b => a.order < b.order) (hn : e.order < n) :
    oldest n (e :: l) = (e.order, e.comment) := by
  unfold oldest
  rw [List.foldl_cons, if_pos hn]
  have h1 := (List.pairwise_cons.mp h).1
  clear h
  induction l with
  | nil => rfl
  | cons x l ih =>
    rw [List.foldl_cons, if_neg (by have := h1 x (by simp); simp; omega)]
    exact ih fun y hy => h1 y (by simp [hy])

theorem KeysOk.named_pairwise {o : Options} {n : Nat} {keys : List Key} (h : KeysOk o n keys) (k : Bytes) :
    (keysNamed k keys).Pairwise fun a b => a.order < b.order := by
  have hp : (keysNamed k keys).Pairwise fun a b => sameName a.name b.name = true → a.order < b.order := h.groups.filter _
  refine hp.imp_of_mem ?_
  intro a b ha hb hab
  refine hab ?_
  rw [same_congr_right (mem_keysNamed.mp hb).2]
  exact (mem_keysNamed.mp ha).2

theorem replaceFirst_names (k v : Bytes) (keys : List Key) :
    (replaceFirst k v keys).map (fun e => (e.name, e.comment, e.order)) = keys.map fun e => (e.name, e.comment, e.order) := by
  induction keys with
  | nil => rfl
  | cons e l ih =>
    rw [replaceFirst]
    split
    · rfl
    · rw [List.map_cons, List.map_cons, ih]

theorem pairwise_distinct {α : Type} {R : α → α → Prop} {l : List α} (h : l.Pairwise R) (hsym : ∀ a b, R a b → R b a) {a b : α}
    (ha : a ∈ l) (hb : b ∈ l) (hab : a ≠ b) : R a b := by
  induction l with
  | nil => simp at ha
  | cons x l ih =>
    obtain ⟨h1, h2⟩ := List.pairwise_cons.mp h
    rcases List.mem_cons.mp ha with ha | ha <;> rcases List.mem_cons.mp hb with hb | hb
    · exact absurd (ha.trans hb.symm) hab
    · rw [ha]; exact h1 b hb
    · rw [hb]; exact hsym _ _ (h1 a ha)
    · exact ih h2 ha hb

theorem pairwise_of_map {α β : Type} {f : α → β} {l m : List α} (h : l.map f = m.map f) {R : β → β → Prop}
    (hm : m.Pairwise fun a b => R (f a) (f b)) : l.Pairwise fun a b => R (f a) (f b) := by
  rw [← List.pairwise_map] at hm ⊢
  rw [h]; exact hm

theorem KeysOk.replaceFirst {o : Options} {n : Nat} {keys : List Key} (h : KeysOk o n keys) (k v : Bytes) :
    KeysOk o n (replaceFirst k v keys) := by
  have e := replaceFirst_names k v keys
  refine ⟨pairwise_of_map (R := fun a b => Le a.1 b.1) e h.sorted, fun hm => pairwise_of_map (R := fun a b => less a.1 b.1 = true) e (h.strict hm),
    ?_, pairwise_of_map (R := fun a b => a.2.2 ≠ b.2.2) e h.orders,
    pairwise_of_map (R := fun a b => sameName a.1 b.1 = true → a.2.2 < b.2.2) e h.groups⟩
  intro x hx
  have : (x.name, x.comment, x.order) ∈ (IniStore.replaceFirst k v keys).map fun e => (e.name, e.comment, e.order) := List.mem_map_of_mem hx
  rw [e, List.mem_map] at this
  obtain ⟨y, hy, he⟩ := this
  have := h.bound y hy
  simp only [Prod.mk.injEq] at he
  omega

/-- The call may be made with other settings than those the object always had. -/
theorem KeysOk.setKey_of {o o' : Options} (ho : o.multiKey = false → o'.multiKey = false) {n : Nat} {keys : List Key} (h : KeysOk o n keys) (k v : Bytes) (c : Option Bytes) (force : Bool) :
    KeysOk o (n + 1) (setKey o' k v c force (n + 1) keys).2 := by
  have h' := h.mono (Nat.le_succ n)
  have hb : ∀ e ∈ keys, e.order < n + 1 := fun e he => Nat.lt_succ_of_le (h.bound e he)
  unfold IniStore.setKey
  split
  · rename_i hn
    rw [keysNamed_eq_nil] at hn
    exact h'.insert _ (Nat.le_refl _) (fun e he => by have := hb e he; simp; omega)
      (fun e he hs => hb e he) (fun _ e he => hn e he)
  · rename_i hn
    split
    · rename_i hm
      obtain ⟨e0, l0, he0⟩ := List.exists_cons_of_ne_nil hn
      have hmem : e0 ∈ keys := (mem_keysNamed.mp (by rw [he0]; simp)).1
      have hpw := h.named_pairwise k
      rw [he0] at hpw
      have hold : oldest (n + 1) (keysNamed k keys) = (e0.order, e0.comment) := by rw [he0]; exact oldest_cons hpw (hb e0 hmem)
      simp only [hold]
      refine (h'.filter _).insert _ (Nat.le_of_lt (hb e0 hmem)) ?_ ?_ ?_
      · intro e he heq
        have he' := mem_keysNotNamed.mp he
        have hs0 : sameName e0.name k = true := (mem_keysNamed.mp (by rw [he0]; simp : e0 ∈ keysNamed k keys)).2
        -- two different elements have different orders
        have hne : e ≠ e0 := by intro hh; rw [hh, hs0] at he'; simp at he'
        have hsym : ∀ a ∈ keys, ∀ b ∈ keys, a ≠ b → a.order ≠ b.order := by
          intro a ha b hb hab
          exact pairwise_distinct h.orders (fun _ _ => Ne.symm) ha hb hab
        exact hsym e he'.1 e0 hmem hne heq
      · intro e he hs
        have := (mem_keysNotNamed.mp he).2
        simp only at hs
        rw [hs] at this; cases this
      · intro _ e he
        exact (mem_keysNotNamed.mp he).2
    · split
      · rename_i hm
        exact h'.insert _ (Nat.le_refl _) (fun e he => by have := hb e he; simp; omega) (fun e he _ => hb e he)
          (fun hf => by rw [ho hf] at hm; cases hm)
      · exact h'.replaceFirst k v

theorem KeysOk.setKey {o : Options} {n : Nat} {keys : List Key} (h : KeysOk o n keys) (k v : Bytes) (c : Option Bytes) (force : Bool) :
    KeysOk o (n + 1) (setKey o k v c force (n + 1) keys).2 := h.setKey_of id k v c force

theorem Inv.empty (o : Options) : Inv o {} := ⟨.nil, by simp, .nil, by simp⟩

theorem Inv.addSection {o : Options} {st : Store} (h : Inv o st) (s : Bytes) (c : Option Bytes) : Inv o (addSection s c st).2 := by
  unfold IniStore.addSection
  split
  · exact h
  · rename_i hn
    have hnone : ∀ e ∈ st.sections, sameName e.name s = false := by
      unfold findSection at hn
      rw [List.find?_eq_none] at hn
      intro e he; simpa using hn e he
    refine ⟨insertBy_sortedS _ h.sorted hnone, ?_, ?_, ?_⟩
    · intro e he
      rcases (mem_insertBy _).mp he with rfl | he
      · exact Nat.le_refl _
      · exact Nat.le_succ_of_le (h.bound e he)
    · refine pairwise_insertBy _ h.orders (fun e he _ => ?_) (fun e he _ => ?_) (h.sorted.imp fun hl => le_of_less hl)
      · have := h.bound e he; simp; omega
      · have := h.bound e he; simp; omega
    · intro e he
      rcases (mem_insertBy _).mp he with rfl | he
      · exact ⟨.nil, fun _ => .nil, by simp, .nil, .nil⟩
      · exact (h.keys e he).mono (Nat.le_succ _)

theorem onSection_names (s : Bytes) (f : List Key → List Key) (l : List Sect) :
    (onSection s f l).map (fun e => (e.name, e.comment, e.order)) = l.map fun e => (e.name, e.comment, e.order) := by
  unfold onSection
  rw [List.map_map]
  refine List.map_congr_left fun e _ => ?_
  simp only [Function.comp]
  split <;> rfl

theorem Inv.onSection {o : Options} {st : Store} (h : Inv o st) (s : Bytes) (f : List Key → List Key) (m : Nat) (hm : st.order ≤ m)
    (hf : ∀ e ∈ st.sections, sameName e.name s = true → KeysOk o m (f e.keys)) :
    Inv o { st with order := m, sections := onSection s f st.sections } := by
  have e := onSection_names s f st.sections
  refine ⟨pairwise_of_map (R := fun a b => less a.1 b.1 = true) e h.sorted, ?_, pairwise_of_map (R := fun a b => a.2.2 ≠ b.2.2) e h.orders, ?_⟩
  · intro x hx
    unfold IniStore.onSection at hx
    obtain ⟨y, hy, rfl⟩ := List.mem_map.mp hx
    have := h.bound y hy
    have hor : (if sameName y.name s = true then { y with keys := f y.keys } else y).order = y.order := by split <;> rfl
    simp only [hor]; omega
  · intro x hx
    unfold IniStore.onSection at hx
    obtain ⟨y, hy, rfl⟩ := List.mem_map.mp hx
    by_cases hs : sameName y.name s = true
    · rw [if_pos hs]; exact hf y hy hs
    · rw [if_neg hs]; exact (h.keys y hy).mono hm

theorem Inv.keysOf {o : Options} {st : Store} (h : Inv o st) (s : Bytes) : KeysOk o st.order (keysOf st s) := by
  unfold IniStore.keysOf
  cases hf : findSection st s with
  | none => exact ⟨.nil, fun _ => .nil, by simp, .nil, .nil⟩
  | some e => exact h.keys e (findSection_same hf).2

theorem Inv.addEntry_of {o o' : Options} (ho : o.multiKey = false → o'.multiKey = false) {st : Store} (h : Inv o st) (s : Bytes) (kv : Option (Bytes × Bytes)) (c : Option Bytes) (force : Bool) :
    Inv o (addEntry o' s kv c force st).2 := by
  unfold IniStore.addEntry
  cases kv with
  | none => exact h.addSection s c
  | some kv =>
    obtain ⟨k, v⟩ := kv
    simp only [Option.isNone_some, Bool.false_eq_true, if_false]
    have h1 := h.addSection s none
    refine h1.onSection s _ _ (Nat.le_succ _) ?_
    intro e _ _
    exact (h1.keysOf s).setKey_of ho k v c force

theorem Inv.addEntry {o : Options} {st : Store} (h : Inv o st) (s : Bytes) (kv : Option (Bytes × Bytes)) (c : Option Bytes) (force : Bool) :
    Inv o (addEntry o s kv c force st).2 := h.addEntry_of id s kv c force

theorem Inv.filter {o : Options} {st : Store} (h : Inv o st) (p : Sect → Bool) : Inv o { st with sections := st.sections.filter p } :=
  ⟨h.sorted.filter p, fun s hs => h.bound s (List.mem_filter.mp hs).1, h.orders.filter p, fun s hs => h.keys s (List.mem_filter.mp hs).1⟩

theorem Inv.delete {o : Options} {st : Store} (h : Inv o st) (s : Bytes) (k : Option Bytes) (re : Bool) : Inv o (delete s k re st).2 := by
  unfold IniStore.delete
  split
  · exact h
  · split
    · exact h.filter _
    · split
      · exact h
      · split
        · exact h.onSection s _ st.order (Nat.le_refl _) fun e he _ => (h.keys e he).filter _
        · exact h.filter _

end Licensecc.IniStore
