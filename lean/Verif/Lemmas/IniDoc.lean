import Verif.Lemmas.IniStore
/-!
# INI objects as documents
-/
namespace Licensecc.IniStore
open Ini IniMem Spec Spec.IniStore

/-! ## Load order -/

theorem sorted_ext {α : Type} (f : α → Nat) : ∀ {l m : List α}, l.Pairwise (fun a b => f a < f b) → m.Pairwise (fun a b => f a < f b) →
    (∀ x, x ∈ l ↔ x ∈ m) → l = m := by
  intro l
  induction l with
  | nil =>
    intro m _ _ h
    cases m with
    | nil => rfl
    | cons x m => exact absurd ((h x).mpr (by simp)) (by simp)
  | cons a l ih =>
    intro m hl hm h
    cases m with
    | nil => exact absurd ((h a).mp (by simp)) (by simp)
    | cons b m =>
      obtain ⟨hl1, hl2⟩ := List.pairwise_cons.mp hl
      obtain ⟨hm1, hm2⟩ := List.pairwise_cons.mp hm
      have hab : a = b := by
        rcases List.mem_cons.mp ((h a).mp (by simp)) with e | e
        · exact e
        · rcases List.mem_cons.mp ((h b).mpr (by simp)) with e' | e'
          · exact e'.symm
          · have := hl1 b e'; have := hm1 a e; omega
      subst hab
      rw [ih hl2 hm2]
      intro x
      constructor
      · intro hx
        rcases List.mem_cons.mp ((h x).mp (by simp [hx])) with e | e
        · have := hl1 x hx; rw [e] at this; omega
        · exact e
      · intro hx
        rcases List.mem_cons.mp ((h x).mpr (by simp [hx])) with e | e
        · have := hm1 x hx; rw [e] at this; omega
        · exact e

section
variable {α : Type} (order : α → Nat) (name : α → Bytes)

theorem insertSorted_perm (lt : α → α → Bool) (x : α) (l : List α) : (insertSorted lt x l).Perm (x :: l) := by
  induction l with
  | nil => exact .rfl
  | cons e l ih =>
    rw [insertSorted]
    split
    · exact (ih.cons e).trans (.swap x e l)
    · exact .rfl

theorem sortByOrder_perm (l : List α) : (sortByOrder order name l).Perm l := by
  induction l with
  | nil => exact .rfl
  | cons e l ih => exact (insertSorted_perm _ e _).trans (ih.cons e)

theorem mem_sortByOrder {l : List α} {x : α} : x ∈ sortByOrder order name l ↔ x ∈ l := (sortByOrder_perm order name l).mem_iff

theorem insertSorted_sorted {x : α} {l : List α} (h : l.Pairwise fun a b => order a < order b) (hx : ∀ e ∈ l, order e ≠ order x) :
    (insertSorted (loadOrder order name) x l).Pairwise fun a b => order a < order b := by
  induction l with
  | nil => simp [insertSorted]
  | cons e l ih =>
    obtain ⟨h1, h2⟩ := List.pairwise_cons.mp h
    have he := hx e (by simp)
    have hlt : loadOrder order name e x = decide (order e < order x) := by unfold loadOrder; rw [if_pos he]
    rw [insertSorted, hlt]
    split
    · rename_i hex
      refine List.pairwise_cons.mpr ⟨?_, ih h2 fun y hy => hx y (by simp [hy])⟩
      intro y hy
      rcases List.mem_cons.mp ((insertSorted_perm _ x l).mem_iff.mp hy) with rfl | hy
      · simpa using hex
      · exact h1 y hy
    · rename_i hex
      have hxe : order x < order e := by simp at hex; omega
      refine List.pairwise_cons.mpr ⟨?_, h⟩
      intro y hy
      rcases List.mem_cons.mp hy with rfl | hy
      · exact hxe
      · have := h1 y hy; omega

theorem sortByOrder_sorted {l : List α} (h : l.Pairwise fun a b => order a ≠ order b) :
    (sortByOrder order name l).Pairwise fun a b => order a < order b := by
  induction l with
  | nil => exact .nil
  | cons e l ih =>
    obtain ⟨h1, h2⟩ := List.pairwise_cons.mp h
    refine insertSorted_sorted order name (ih h2) fun y hy => ?_
    exact (h1 y ((mem_sortByOrder order name).mp hy)).symm

/-- A list sorted by load order with the same elements. -/
theorem sortByOrder_eq {l m : List α} (hl : l.Pairwise fun a b => order a ≠ order b) (hm : m.Pairwise fun a b => order a < order b)
    (h : ∀ x, x ∈ m ↔ x ∈ l) : sortByOrder order name l = m :=
  sorted_ext order (sortByOrder_sorted order name hl) hm fun x => by rw [mem_sortByOrder, h]

theorem sortByOrder_insert {l : List α} {x : α} (hl : l.Pairwise fun a b => order a ≠ order b) (hx : ∀ e ∈ l, order e < order x)
    {l' : List α} (hl' : l'.Perm (x :: l)) : sortByOrder order name l' = sortByOrder order name l ++ [x] := by
  refine sortByOrder_eq order name ?_ ?_ ?_
  · rw [List.Perm.pairwise_iff (fun h => Ne.symm h) hl']
    exact List.pairwise_cons.mpr ⟨fun e he => by have := hx e he; omega, hl⟩
  · rw [List.pairwise_append]
    refine ⟨sortByOrder_sorted order name hl, by simp, ?_⟩
    intro a ha b hb
    rw [List.mem_singleton.mp hb]
    exact hx a ((mem_sortByOrder order name).mp ha)
  · intro y
    rw [List.mem_append, mem_sortByOrder, hl'.mem_iff]; simp [or_comm]

theorem sortByOrder_filter {l : List α} (hl : l.Pairwise fun a b => order a ≠ order b) (p : α → Bool) :
    sortByOrder order name (l.filter p) = (sortByOrder order name l).filter p := by
  refine sortByOrder_eq order name (hl.filter p) ((sortByOrder_sorted order name hl).filter p) ?_
  intro x
  rw [List.mem_filter, List.mem_filter, mem_sortByOrder]

theorem sortByOrder_map {l : List α} (hl : l.Pairwise fun a b => order a ≠ order b) (f : α → α) (hf : ∀ x ∈ l, order (f x) = order x) :
    sortByOrder order name (l.map f) = (sortByOrder order name l).map f := by
  refine sortByOrder_eq order name ?_ ?_ ?_
  · rw [List.pairwise_map]
    refine hl.imp_of_mem ?_
    intro a b ha hb h
    rw [hf a ha, hf b hb]; exact h
  · rw [List.pairwise_map]
    refine (sortByOrder_sorted order name hl).imp_of_mem ?_
    intro a b ha hb h
    rw [hf a ((mem_sortByOrder order name).mp ha), hf b ((mem_sortByOrder order name).mp hb)]; exact h
  · intro x
    simp only [List.mem_map, mem_sortByOrder]

end

/-! ## The first key of each name -/

theorem firstKeys_sublist : ∀ (last : Option Bytes) (l : List Key), (firstKeys last l).Sublist l := by
  intro last l
  induction l generalizing last with
  | nil => exact .slnil
  | cons e l ih =>
    rw [firstKeys]
    split
    · exact (ih _).cons_cons e
    · exact (ih _).cons e

theorem mem_firstKeys_aux {l : List Key} (hs : SortedW Key.name l) (hn : l.Nodup) : ∀ {last : Option Bytes}, (∀ n, last = some n → ∀ e ∈ l, Le n e.name) →
    ∀ e, e ∈ firstKeys last l ↔ (∀ n, last = some n → less n e.name = true) ∧ (keysNamed e.name l).head? = some e := by
  induction l with
  | nil => intro last _ e; simp [firstKeys, keysNamed]
  | cons x l ih =>
    intro last hlast e
    obtain ⟨h1, h2⟩ := List.pairwise_cons.mp hs
    obtain ⟨n1, n2⟩ := List.pairwise_cons.mp hn
    have hx : x ∉ l := fun h => n1 x h rfl
    have ih2 := ih h2 n2 (last := some x.name) (by rintro n ⟨⟩ y hy; exact h1 y hy) e
    have ih3 := ih h2 n2 (last := last) (fun n hn y hy => hlast n hn y (by simp [hy])) e
    rw [firstKeys]
    have hk : keysNamed e.name (x :: l) = if sameName x.name e.name then x :: keysNamed e.name l else keysNamed e.name l := by
      unfold keysNamed; rw [List.filter_cons]
    split
    · rename_i hc
      rw [List.mem_cons, ih2, hk]
      constructor
      · rintro (rfl | ⟨ha, hb⟩)
        · refine ⟨?_, by rw [if_pos (sameName_refl _)]; rfl⟩
          intro n hn
          subst hn
          simpa using hc
        · have hxe := ha x.name rfl
          refine ⟨?_, by rw [if_neg (by rw [less_not_same hxe]; simp)]; exact hb⟩
          intro n hn
          exact less_of_le_less (hlast n hn x (by simp)) hxe
      · rintro ⟨ha, hb⟩
        by_cases hs' : sameName x.name e.name = true
        · rw [if_pos hs'] at hb
          left
          simpa using hb.symm
        · rw [if_neg hs'] at hb
          right
          refine ⟨?_, hb⟩
          rintro n ⟨⟩
          have hel : e ∈ l := (mem_keysNamed.mp (List.mem_of_head? hb)).1
          rcases less_or x.name e.name with h | h | h
          · exact h
          · exact absurd h hs'
          · have := h1 e hel; unfold Le at this; rw [h] at this; cases this
    · rename_i hc
      rw [ih3, hk]
      constructor
      · rintro ⟨ha, hb⟩
        refine ⟨ha, ?_⟩
        by_cases hs' : sameName x.name e.name = true
        · exfalso
          apply hc
          cases last with
          | none => rfl
          | some n => simp only [Option.all_some]; rw [less_same_right hs']; exact ha n rfl
        · rw [if_neg hs']; exact hb
      · rintro ⟨ha, hb⟩
        refine ⟨ha, ?_⟩
        by_cases hs' : sameName x.name e.name = true
        · exfalso
          apply hc
          cases last with
          | none => rfl
          | some n => simp only [Option.all_some]; rw [less_same_right hs']; exact ha n rfl
        · rw [if_neg hs'] at hb; exact hb

theorem KeysOk.nodup {o : Options} {n : Nat} {keys : List Key} (h : KeysOk o n keys) : keys.Nodup :=
  h.orders.imp fun hab he => hab (by rw [he])

/-- The keys `GetAllKeys` lists are the first ones of their names. -/
theorem KeysOk.mem_firstKeys {o : Options} {n : Nat} {keys : List Key} (h : KeysOk o n keys) (e : Key) :
    e ∈ firstKeys none keys ↔ (keysNamed e.name keys).head? = some e := by
  rw [mem_firstKeys_aux h.sorted h.nodup (by simp)]
  simp

theorem KeysOk.firstKeys_orders {o : Options} {n : Nat} {keys : List Key} (h : KeysOk o n keys) :
    (firstKeys none keys).Pairwise fun a b => a.order ≠ b.order := h.orders.sublist (firstKeys_sublist none keys)

/-- Names are listed once. -/
theorem KeysOk.firstKeys_strict {o : Options} {n : Nat} {keys : List Key} (h : KeysOk o n keys) :
    SortedS Key.name (firstKeys none keys) := by
  have h1 : SortedW Key.name (firstKeys none keys) := h.sorted.sublist (firstKeys_sublist none keys)
  have h2 : (firstKeys none keys).Nodup := h.nodup.sublist (firstKeys_sublist none keys)
  refine (h1.and h2).imp_of_mem ?_
  rintro a b ha hb ⟨hle, hne⟩
  rcases less_or a.name b.name with h3 | h3 | h3
  · exact h3
  · have e1 := (h.mem_firstKeys a).mp ha
    have e2 := (h.mem_firstKeys b).mp hb
    rw [keysNamed_congr h3, e2] at e1
    exact absurd (by simpa using e1.symm) hne
  · unfold Le at hle; rw [h3] at hle; cases hle

/-! ## The document of an object -/

/-- The values of a key. -/
def docValues (k : Bytes) (keys : List Key) : List (Bytes × Option Bytes) := (keysNamed k keys).map fun e => (e.value, e.comment)

/-- The keys of a section in load order with their values. -/
def docKeys (keys : List Key) : List DocKey :=
  (sortByOrder Key.order Key.name (firstKeys none keys)).map fun k => ⟨k.name, docValues k.name keys⟩

/-- A section. -/
def docSection (s : Sect) : DocSection := ⟨s.name, s.comment, docKeys s.keys⟩

/-- The sections in load order. -/
def doc (st : Store) : Doc := (sortByOrder Sect.order Sect.name st.sections).map docSection

theorem sameCI_iff {a b : Bytes} : SameCI a b ↔ sameName a b = true := (sameName_iff a b).symm

/-- Every key is among those listed, in some spelling. -/
theorem KeysOk.exists_first {o : Options} {n : Nat} {keys : List Key} (h : KeysOk o n keys) (k : Bytes) :
    (∃ e ∈ firstKeys none keys, sameName e.name k = true) ↔ keysNamed k keys ≠ [] := by
  constructor
  · rintro ⟨e, he, hs⟩ hn
    rw [h.mem_firstKeys, keysNamed_congr hs, hn] at he
    cases he
  · intro hn
    obtain ⟨e, l, he⟩ := List.exists_cons_of_ne_nil hn
    have hs : sameName e.name k = true := (mem_keysNamed.mp (by rw [he]; simp : e ∈ keysNamed k keys)).2
    exact ⟨e, by rw [h.mem_firstKeys, keysNamed_congr hs, he]; rfl, hs⟩

theorem keysNamed_insertBy_same {x : Key} {k : Bytes} {keys : List Key} (h : SortedW Key.name keys) (hx : sameName x.name k = true) :
    keysNamed k (insertBy Key.name x keys) = keysNamed k keys ++ [x] := filter_insertBy_same Key.name h hx

theorem keysNamed_insertBy_other {x : Key} {k : Bytes} {keys : List Key} (hx : sameName x.name k = false) :
    keysNamed k (insertBy Key.name x keys) = keysNamed k keys := filter_insertBy_other Key.name hx

theorem keysNamed_notNamed (k k' : Bytes) (keys : List Key) :
    keysNamed k' (keysNotNamed k keys) = if sameName k k' then [] else keysNamed k' keys := by
  unfold keysNamed keysNotNamed
  rw [List.filter_filter]
  split
  · rename_i h
    rw [List.filter_eq_nil_iff]
    intro e _
    rw [← same_congr_right h]
    cases sameName e.name k <;> simp
  · rename_i h
    refine List.filter_congr fun e _ => ?_
    cases h1 : sameName e.name k' with
    | false => rfl
    | true =>
      have : sameName e.name k = false := by
        cases h2 : sameName e.name k with
        | false => rfl
        | true => rw [sameName_trans h2] at h1; exact absurd h1 h
      simp [this]

theorem any_docKeys {o : Options} {n : Nat} {keys : List Key} (h : KeysOk o n keys) (k : Bytes) :
    (∃ e ∈ docKeys keys, SameCI e.name k) ↔ keysNamed k keys ≠ [] := by
  rw [← h.exists_first k]
  unfold docKeys
  constructor
  · rintro ⟨e, he, hs⟩
    obtain ⟨x, hx, rfl⟩ := List.mem_map.mp he
    exact ⟨x, (mem_sortByOrder _ _).mp hx, sameCI_iff.mp hs⟩
  · rintro ⟨x, hx, hs⟩
    exact ⟨_, List.mem_map_of_mem ((mem_sortByOrder _ _).mpr hx), sameCI_iff.mpr hs⟩

open Classical in
/-- Setting a key. -/
theorem docKeys_setKey {o : Options} {n : Nat} {keys : List Key} (h : KeysOk o n keys) (k v : Bytes) (c : Option Bytes) (force : Bool) :
    docKeys (setKey o k v c force (n + 1) keys).2 = withKey o.multiKey k v c force (docKeys keys) := by
  have hok := h.setKey k v c force
  have hb : ∀ e ∈ keys, e.order < n + 1 := fun e he => Nat.lt_succ_of_le (h.bound e he)
  have hfk : ∀ e ∈ firstKeys none keys, e ∈ keys := fun e he => (firstKeys_sublist none keys).subset he
  unfold withKey
  by_cases hn : keysNamed k keys = []
  · rw [if_neg (by rw [any_docKeys h]; simp [hn])]
    unfold setKey at hok ⊢
    rw [if_pos hn] at hok ⊢
    have hother : ∀ e ∈ keys, sameName k e.name = false := by
      intro e he; rw [sameName_comm]; exact keysNamed_eq_nil.mp hn e he
    have hL : sortByOrder Key.order Key.name (firstKeys none (insertBy Key.name ⟨k, c, n + 1, v⟩ keys))
        = sortByOrder Key.order Key.name (firstKeys none keys) ++ [⟨k, c, n + 1, v⟩] := by
      refine sortByOrder_eq _ _ hok.firstKeys_orders ?_ ?_
      · rw [List.pairwise_append]
        refine ⟨sortByOrder_sorted _ _ h.firstKeys_orders, by simp, ?_⟩
        intro a ha b hb'
        rw [List.mem_singleton.mp hb']
        exact hb a (hfk a ((mem_sortByOrder _ _).mp ha))
      · intro x
        rw [List.mem_append, mem_sortByOrder, List.mem_singleton, h.mem_firstKeys, hok.mem_firstKeys]
        by_cases hx : sameName k x.name = true
        · rw [keysNamed_insertBy_same h.sorted hx, keysNamed_congr (same_symm hx), hn]
          simp [eq_comm]
        · have hx' : sameName k x.name = false := by simpa using hx
          rw [keysNamed_insertBy_other hx']
          constructor
          · rintro (h1 | rfl)
            · exact h1
            · exact absurd (sameName_refl _) hx
          · exact .inl
    unfold docKeys
    rw [hL, List.map_append, List.map_singleton]
    refine congr (congrArg _ ?_) ?_
    · refine List.map_congr_left fun e he => ?_
      have he' := hfk e ((mem_sortByOrder _ _).mp he)
      unfold docValues
      rw [keysNamed_insertBy_other (hother e he')]
    · unfold docValues
      rw [keysNamed_insertBy_same h.sorted (sameName_refl k), hn]
      rfl
  · rw [if_pos (by rw [any_docKeys h]; exact hn)]
    obtain ⟨e0, l0, he0⟩ := List.exists_cons_of_ne_nil hn
    have hm0 : e0 ∈ keysNamed k keys := by rw [he0]; simp
    have hs0 := (mem_keysNamed.mp hm0).2
    have hk0 := (mem_keysNamed.mp hm0).1
    have hfirst : ∀ e ∈ firstKeys none keys, sameName e.name k = true → e = e0 := by
      intro e he hs
      rw [h.mem_firstKeys, keysNamed_congr hs, he0] at he
      simpa using he.symm
    have hfirst0 : e0 ∈ firstKeys none keys := by rw [h.mem_firstKeys, keysNamed_congr hs0, he0]; rfl
    have hpw := h.named_pairwise k
    rw [he0] at hpw
    have hold : oldest (n + 1) (keysNamed k keys) = (e0.order, e0.comment) := by rw [he0]; exact oldest_cons hpw (hb e0 hk0)
    unfold setKey at hok ⊢
    rw [if_neg hn] at hok ⊢
    cases hm : o.multiKey with
    | true =>
      cases force with
      | true =>
        -- replaced by force
        simp only [hm, Bool.and_self, if_true, hold] at hok ⊢
        have hL : sortByOrder Key.order Key.name (firstKeys none (insertBy Key.name ⟨k, e0.comment.or c, e0.order, v⟩ (keysNotNamed k keys)))
            = (sortByOrder Key.order Key.name (firstKeys none keys)).map fun e =>
                if sameName e.name k then ⟨k, e0.comment.or c, e0.order, v⟩ else e := by
          refine sortByOrder_eq _ _ hok.firstKeys_orders ?_ ?_
          · rw [List.pairwise_map]
            refine (sortByOrder_sorted _ _ h.firstKeys_orders).imp_of_mem ?_
            intro a b ha hb' hab
            have hord : ∀ e ∈ firstKeys none keys, (if sameName e.name k = true then (⟨k, e0.comment.or c, e0.order, v⟩ : Key) else e).order = e.order := by
              intro e he
              split
              · rename_i hs; rw [hfirst e he hs]
              · rfl
            rw [hord a ((mem_sortByOrder _ _).mp ha), hord b ((mem_sortByOrder _ _).mp hb')]
            exact hab
          · intro x
            rw [hok.mem_firstKeys, List.mem_map]
            have hsw : SortedW Key.name (keysNotNamed k keys) := h.sorted.filter _
            by_cases hx : sameName k x.name = true
            · rw [keysNamed_insertBy_same hsw hx, keysNamed_notNamed, if_pos hx]
              constructor
              · rintro ⟨y, hy, rfl⟩
                rw [mem_sortByOrder] at hy
                split at hx
                · rename_i hs; rw [if_pos hs]; rfl
                · rename_i hs; rw [sameName_comm] at hx; exact absurd hx hs
              · intro hx'
                simp only [List.nil_append, List.head?_cons, Option.some.injEq] at hx'
                exact ⟨e0, (mem_sortByOrder _ _).mpr hfirst0, by rw [if_pos hs0]; exact hx'⟩
            · have hx' : sameName k x.name = false := by simpa using hx
              rw [keysNamed_insertBy_other hx', keysNamed_notNamed, if_neg hx]
              constructor
              · rintro ⟨y, hy, rfl⟩
                rw [mem_sortByOrder, h.mem_firstKeys] at hy
                split at hx
                · exact absurd (sameName_refl _) hx
                · rename_i hs; rw [if_neg hs]; exact hy
              · intro hx2
                refine ⟨x, ?_, by rw [if_neg (by rw [sameName_comm]; exact hx)]⟩
                rw [mem_sortByOrder, h.mem_firstKeys]
                exact hx2
        unfold docKeys
        rw [hL, List.map_map, List.map_map]
        refine List.map_congr_left fun e he => ?_
        have he' := (mem_sortByOrder _ _).mp he
        have hsw : SortedW Key.name (keysNotNamed k keys) := h.sorted.filter _
        simp only [Function.comp, sameCI_iff]
        by_cases hs : sameName e.name k = true
        · rw [if_pos hs, if_pos hs]
          have : e = e0 := hfirst e he' hs
          subst this
          unfold docValues
          rw [keysNamed_insertBy_same hsw (sameName_refl k), keysNamed_notNamed, if_pos (sameName_refl k), keysNamed_congr hs, he0]
          rfl
        · rw [if_neg hs, if_neg hs]
          have hs' : sameName k e.name = false := by rw [sameName_comm]; simpa using hs
          unfold docValues
          rw [keysNamed_insertBy_other hs', keysNamed_notNamed, if_neg (by rw [hs']; simp)]
      | false =>
        simp only [hm, Bool.and_false, Bool.false_eq_true, if_false, if_true] at hok ⊢
        have hL : sortByOrder Key.order Key.name (firstKeys none (insertBy Key.name ⟨k, c, n + 1, v⟩ keys))
            = sortByOrder Key.order Key.name (firstKeys none keys) := by
          refine sortByOrder_eq _ _ hok.firstKeys_orders (sortByOrder_sorted _ _ h.firstKeys_orders) ?_
          intro x
          rw [hok.mem_firstKeys, mem_sortByOrder, h.mem_firstKeys]
          by_cases hx : sameName k x.name = true
          · rw [keysNamed_insertBy_same h.sorted hx, keysNamed_congr (same_symm hx), he0]
            simp
          · rw [keysNamed_insertBy_other (by simpa using hx)]
        unfold docKeys
        rw [hL, List.map_map]
        refine List.map_congr_left fun e he => ?_
        have he' := (mem_sortByOrder _ _).mp he
        simp only [Function.comp, sameCI_iff]
        by_cases hs : sameName e.name k = true
        · rw [if_pos hs]
          unfold docValues
          rw [keysNamed_insertBy_same h.sorted (same_symm hs), List.map_append]
          rfl
        · rw [if_neg hs]
          unfold docValues
          rw [keysNamed_insertBy_other (by rw [sameName_comm]; simpa using hs)]
    | false =>
      simp only [hm, Bool.false_and, Bool.false_eq_true, if_false] at hok ⊢
      have hone : l0 = [] := by
        have hst : SortedS Key.name (keysNamed k keys) := (h.strict hm).filter _
        rw [he0] at hst
        cases l0 with
        | nil => rfl
        | cons e1 l1 =>
          have h1 : less e0.name e1.name = true := (List.pairwise_cons.mp hst).1 e1 (by simp)
          have hs1 : sameName e1.name k = true := (mem_keysNamed.mp (by rw [he0]; simp : e1 ∈ keysNamed k keys)).2
          have : sameName e0.name e1.name = true := by rw [same_congr_right hs1]; exact hs0
          rw [less_not_same h1] at this; cases this
      subst hone
      have hrep : ∀ {l : List Key}, l.Pairwise (fun a b => less a.name b.name = true) →
          replaceFirst k v l = l.map fun e => if sameName e.name k then { e with value := v } else e := by
        intro l
        induction l with
        | nil => intro _; rfl
        | cons x l ih =>
          intro hl
          obtain ⟨a1, a2⟩ := List.pairwise_cons.mp hl
          rw [replaceFirst, List.map_cons]
          split
          · rename_i hs
            refine congrArg _ ?_
            rw [← List.map_id l]
            rw [List.map_map]
            refine (List.map_congr_left fun e he => ?_)
            simp only [Function.comp, id]
            rw [if_neg]
            intro hse
            have := less_not_same (a1 e he)
            rw [same_congr_right hse] at this
            rw [this] at hs; cases hs
          · rw [ih a2]
      rw [hrep (h.strict hm)] at hok ⊢
      have hkn : ∀ k', keysNamed k' (keys.map fun e => if sameName e.name k then { e with value := v } else e)
          = (keysNamed k' keys).map fun e => if sameName e.name k then { e with value := v } else e := by
        intro k'
        unfold keysNamed
        rw [List.filter_map]
        refine congrArg _ (List.filter_congr fun e _ => ?_)
        simp only [Function.comp]
        split <;> rfl
      have hL : sortByOrder Key.order Key.name (firstKeys none (keys.map fun e => if sameName e.name k then { e with value := v } else e))
          = (sortByOrder Key.order Key.name (firstKeys none keys)).map fun e => if sameName e.name k then { e with value := v } else e := by
        refine sortByOrder_eq _ _ hok.firstKeys_orders ?_ ?_
        · rw [List.pairwise_map]
          refine (sortByOrder_sorted _ _ h.firstKeys_orders).imp ?_
          intro a b hab
          have hord : ∀ e : Key, (if sameName e.name k = true then { e with value := v } else e).order = e.order := by
            intro e; split <;> rfl
          rw [hord, hord]; exact hab
        · intro x
          rw [hok.mem_firstKeys, List.mem_map, hkn]
          have hname : ∀ e : Key, (if sameName e.name k = true then { e with value := v } else e).name = e.name := by
            intro e; split <;> rfl
          constructor
          · rintro ⟨y, hy, rfl⟩
            rw [mem_sortByOrder, h.mem_firstKeys] at hy
            rw [hname, List.head?_map, hy]; rfl
          · intro hx
            rw [List.head?_map] at hx
            cases hh : (keysNamed x.name keys).head? with
            | none => rw [hh] at hx; cases hx
            | some y =>
              rw [hh] at hx
              simp only [Option.map_some, Option.some.injEq] at hx
              refine ⟨y, ?_, hx⟩
              rw [mem_sortByOrder, h.mem_firstKeys, ← hname y, hx]
              exact hh
      unfold docKeys
      rw [hL, List.map_map, List.map_map]
      refine List.map_congr_left fun e he => ?_
      have he' := (mem_sortByOrder _ _).mp he
      simp only [Function.comp, sameCI_iff]
      by_cases hs : sameName e.name k = true
      · rw [if_pos hs, if_pos hs]
        have : e = e0 := hfirst e he' hs
        subst this
        unfold docValues
        simp only
        rw [hkn, keysNamed_congr hs, he0]
        simp [hs, firstComment]
      · rw [if_neg hs, if_neg hs]
        unfold docValues
        rw [hkn]
        refine congrArg (DocKey.mk e.name) ?_
        rw [List.map_map]
        refine List.map_congr_left fun x hx => ?_
        have hx2 := (mem_keysNamed.mp hx).2
        simp only [Function.comp]
        rw [if_neg]
        rw [sameName_trans hx2]
        exact hs

/-- Deleting a key. -/
theorem docKeys_notNamed {o : Options} {n : Nat} {keys : List Key} (h : KeysOk o n keys) (k : Bytes) :
    docKeys (keysNotNamed k keys) = (docKeys keys).filter fun e => !sameName e.name k := by
  have hok : KeysOk o n (keysNotNamed k keys) := h.filter _
  have hL : sortByOrder Key.order Key.name (firstKeys none (keysNotNamed k keys))
      = (sortByOrder Key.order Key.name (firstKeys none keys)).filter fun e => !sameName e.name k := by
    refine sortByOrder_eq _ _ hok.firstKeys_orders ((sortByOrder_sorted _ _ h.firstKeys_orders).filter _) ?_
    intro x
    rw [List.mem_filter, mem_sortByOrder, hok.mem_firstKeys, h.mem_firstKeys, keysNamed_notNamed, sameName_comm k]
    cases sameName x.name k <;> simp
  unfold docKeys
  rw [hL, List.filter_map]
  refine List.map_congr_left fun e he => ?_
  have hs := (List.mem_filter.mp he).2
  unfold docValues
  rw [keysNamed_notNamed, sameName_comm k, if_neg (by simpa using hs)]

theorem docKeys_eq_nil {o : Options} {n : Nat} {keys : List Key} (h : KeysOk o n keys) : docKeys keys = [] ↔ keys = [] := by
  constructor
  · intro hd
    cases keys with
    | nil => rfl
    | cons e l =>
      have : ∃ x ∈ docKeys (e :: l), SameCI x.name e.name := (any_docKeys h e.name).mpr (by
        intro hn
        have := keysNamed_eq_nil.mp hn e (by simp)
        rw [sameName_refl] at this; cases this)
      rw [hd] at this
      simp at this
  · rintro rfl
    simp [docKeys, firstKeys, sortByOrder]

/-! ## Changes -/

theorem mem_doc {st : Store} {d : DocSection} : d ∈ doc st ↔ ∃ e ∈ st.sections, docSection e = d := by
  unfold doc
  rw [List.mem_map]
  simp only [mem_sortByOrder]

theorem any_doc (st : Store) (s : Bytes) : (∃ e ∈ doc st, SameCI e.name s) ↔ (findSection st s).isSome = true := by
  unfold findSection
  rw [List.find?_isSome]
  constructor
  · rintro ⟨d, hd, hs⟩
    obtain ⟨e, he, rfl⟩ := mem_doc.mp hd
    exact ⟨e, he, sameCI_iff.mp hs⟩
  · rintro ⟨e, he, hs⟩
    exact ⟨_, mem_doc.mpr ⟨e, he, rfl⟩, sameCI_iff.mpr hs⟩

theorem doc_addSection {o : Options} {st : Store} (h : Inv o st) (s : Bytes) (c : Option Bytes) :
    doc (addSection s c st).2 = Spec.IniStore.withSection s c (doc st) := by
  unfold Spec.IniStore.withSection
  cases hf : findSection st s with
  | some e =>
    rw [if_pos ((any_doc st s).mpr (by rw [hf]; rfl))]
    unfold addSection
    rw [hf]
  | none =>
    rw [if_neg (by rw [any_doc st s, hf]; simp)]
    unfold addSection
    rw [hf]
    unfold doc
    simp only
    rw [sortByOrder_insert Sect.order Sect.name h.orders (x := ⟨s, c, st.order + 1, []⟩)
      (fun e he => Nat.lt_succ_of_le (h.bound e he)) (insertBy_perm _ _ _), List.map_append]
    simp [docSection, docKeys, firstKeys, sortByOrder]

open Classical in
theorem doc_onSection {o : Options} {st : Store} (h : Inv o st) (s : Bytes) (f : List Key → List Key) (g : List DocKey → List DocKey) (m : Nat)
    (hf : ∀ e ∈ st.sections, sameName e.name s = true → docKeys (f e.keys) = g (docKeys e.keys)) :
    doc { st with order := m, sections := onSection s f st.sections }
      = (doc st).map fun e => if SameCI e.name s then { e with keys := g e.keys } else e := by
  unfold doc onSection
  simp only
  rw [sortByOrder_map Sect.order Sect.name h.orders _ (fun x _ => by split <;> rfl), List.map_map, List.map_map]
  refine List.map_congr_left fun e he => ?_
  have he' := (mem_sortByOrder _ _).mp he
  simp only [Function.comp]
  by_cases hs : sameName e.name s = true
  · rw [if_pos hs, if_pos (show SameCI (docSection e).name s from sameCI_iff.mpr hs)]
    unfold docSection
    simp only [hf e he' hs]
  · rw [if_neg hs, if_neg (show ¬ SameCI (docSection e).name s from fun hh => hs (sameCI_iff.mp hh))]

theorem doc_filter {o : Options} {st : Store} (h : Inv o st) (s : Bytes) :
    doc { st with sections := st.sections.filter fun e => !sameName e.name s } = (doc st).filter fun e => !sameName e.name s := by
  unfold doc
  simp only
  rw [sortByOrder_filter Sect.order Sect.name h.orders, List.filter_map]
  rfl

theorem findSection_unique {o : Options} {st : Store} (h : Inv o st) {s : Bytes} {e : Sect} (he : e ∈ st.sections) (hs : sameName e.name s = true) :
    findSection st s = some e := by
  have h' := h.sorted
  unfold findSection
  revert he h'
  generalize st.sections = l
  intro he h'
  induction l with
  | nil => simp at he
  | cons x l ih =>
    obtain ⟨h1, h2⟩ := List.pairwise_cons.mp h'
    rw [List.find?_cons]
    rcases List.mem_cons.mp he with rfl | he
    · rw [hs]
    · have : sameName x.name s = false := by
        rw [← same_congr_right hs]; exact less_not_same (h1 e he)
      rw [this]
      exact ih he h2

theorem doc_addEntry {o : Options} {st : Store} (h : Inv o st) (s k v : Bytes) (c : Option Bytes) (force : Bool) :
    doc (addEntry o s (some (k, v)) c force st).2 = (Change.set s k v c force).apply o.multiKey (doc st) := by
  have h1 := h.addSection s none
  unfold addEntry Change.apply
  simp only [Option.isNone_some, Bool.false_eq_true, if_false]
  rw [doc_onSection h1 s _ (withKey o.multiKey k v c force) _ ?_, doc_addSection h]
  intro e he hs
  have := findSection_unique h1 he hs
  rw [this]
  simp only [Option.map_some, Option.getD_some]
  exact docKeys_setKey (h1.keys e he) k v c force

open Classical in
/-- Looking up a section of the document. -/
theorem doc_section? {o : Options} {st : Store} (h : Inv o st) (s : Bytes) :
    Doc.section? (doc st) s = (findSection st s).map docSection := by
  unfold Doc.section?
  cases hf : findSection st s with
  | none =>
    rw [Option.map_none, List.find?_eq_none]
    intro d hd
    have hn : ¬ ∃ e ∈ doc st, SameCI e.name s := by rw [any_doc, hf]; simp
    simpa using fun hs => hn ⟨d, hd, hs⟩
  | some e =>
    obtain ⟨hs, he⟩ := findSection_same hf
    have hd : docSection e ∈ doc st := mem_doc.mpr ⟨e, he, rfl⟩
    rw [Option.map_some]
    cases hq : (doc st).find? fun e => decide (SameCI e.name s) with
    | none =>
      rw [List.find?_eq_none] at hq
      exact absurd (show SameCI (docSection e).name s from sameCI_iff.mpr hs) (by simpa using hq _ hd)
    | some d =>
      have h1 : SameCI d.name s := by simpa using List.find?_some hq
      obtain ⟨e', he', rfl⟩ := mem_doc.mp (List.mem_of_find?_eq_some hq)
      have := findSection_unique h he' (sameCI_iff.mp h1)
      rw [hf] at this
      rw [Option.some.inj this]

open Classical in
theorem docSection_key? {o : Options} {n : Nat} {e : Sect} (h : KeysOk o n e.keys) (k : Bytes) :
    (((docSection e).key? k).map (·.values)).getD [] = docValues k e.keys ∧ ((docSection e).key? k).isSome = decide (keysNamed k e.keys ≠ []) := by
  unfold DocSection.key? docSection
  simp only
  cases hq : (docKeys e.keys).find? fun e => decide (SameCI e.name k) with
  | none =>
    rw [List.find?_eq_none] at hq
    have hn : keysNamed k e.keys = [] := by
      by_cases hne : keysNamed k e.keys = []
      · exact hne
      · obtain ⟨x, hx, hs⟩ := (any_docKeys h k).mpr hne
        exact absurd hs (by simpa using hq x hx)
    unfold docValues
    rw [hn]
    simp
  | some d =>
    have h1 : SameCI d.name k := by simpa using List.find?_some hq
    have h2 := List.mem_of_find?_eq_some hq
    have hne := (any_docKeys h k).mp ⟨d, h2, h1⟩
    unfold docKeys at h2
    obtain ⟨x, hx, rfl⟩ := List.mem_map.mp h2
    refine ⟨?_, by simpa using hne⟩
    simp only [Option.map_some, Option.getD_some]
    unfold docValues
    rw [keysNamed_congr (sameCI_iff.mp h1)]

/-- Looking up the values of a key of the document. -/
theorem doc_values {o : Options} {st : Store} (h : Inv o st) (s k : Bytes) :
    Doc.values (doc st) s k = (keysNamed k (keysOf st s)).map fun e => (e.value, e.comment) := by
  unfold Doc.values
  rw [doc_section? h]
  cases hf : findSection st s with
  | none => simp [keysOf, hf, keysNamed]
  | some e =>
    have := (docSection_key? (h.keys e (findSection_same hf).2) k).1
    simp only [Option.map_some, Option.bind_some, this, keysOf, hf, Option.getD_some]
    rfl

theorem doc_delete {o : Options} {st : Store} (h : Inv o st) (s : Bytes) (k : Option Bytes) (re : Bool) :
    doc (delete s k re st).2 = (Change.delete s k re).apply o.multiKey (doc st) := by
  classical
  have hdec : ∀ a : Bytes, decide (¬ SameCI a s) = !sameName a s := by
    intro a
    by_cases ha : sameName a s = true
    · have := sameCI_iff.mpr ha; simp [this, ha]
    · have : ¬ SameCI a s := fun hh => ha (sameCI_iff.mp hh)
      simp [this, ha]
  have hnames : ∀ {e : Sect}, e ∈ st.sections → findSection st s = none → sameName e.name s = false := by
    intro e he hf
    unfold findSection at hf
    rw [List.find?_eq_none] at hf
    simpa using hf e he
  cases k with
  | none =>
    unfold Change.apply
    simp only [hdec]
    rw [← doc_filter h]
    unfold delete
    cases hf : findSection st s with
    | some e => rfl
    | none =>
      simp only
      have : st.sections.filter (fun e => !sameName e.name s) = st.sections := by
        rw [List.filter_eq_self]
        intro e he
        rw [hnames he hf]; rfl
      rw [this]
  | some k =>
    have hmap := doc_onSection h s (keysNotNamed k) (fun ks => ks.filter fun e => !sameName e.name k) st.order
      (fun e he _ => docKeys_notNamed (h.keys e he) k)
    have hdk : ∀ a : Bytes, decide (¬ SameCI a k) = !sameName a k := by
      intro a
      by_cases ha : sameName a k = true
      · have := sameCI_iff.mpr ha; simp [this, ha]
      · have : ¬ SameCI a k := fun hh => ha (sameCI_iff.mp hh)
        simp [this, ha]
    unfold Change.apply
    simp only [hdk]
    have hmap' : doc { st with sections := onSection s (keysNotNamed k) st.sections }
        = (doc st).map fun e => if SameCI e.name s then { e with keys := e.keys.filter fun e => !sameName e.name k } else e := hmap
    rw [← hmap', doc_values h]
    have hmem : ∀ d ∈ doc { st with sections := onSection s (keysNotNamed k) st.sections }, SameCI d.name s →
        ∃ e ∈ st.sections, sameName e.name s = true ∧ d.keys = docKeys (keysNotNamed k e.keys) := by
      intro d hd hs
      obtain ⟨x, hx, rfl⟩ := mem_doc.mp hd
      unfold onSection at hx
      obtain ⟨e, he, rfl⟩ := List.mem_map.mp hx
      by_cases hes : sameName e.name s = true
      · rw [if_pos hes] at hs ⊢
        exact ⟨e, he, hes, rfl⟩
      · rw [if_neg hes] at hs
        exact absurd (sameCI_iff.mp hs) hes
    have hsame : keysNamed k (keysOf st s) = [] → { st with sections := onSection s (keysNotNamed k) st.sections } = st := by
      intro hk
      have : onSection s (keysNotNamed k) st.sections = st.sections := by
        unfold onSection
        conv => rhs; rw [← List.map_id st.sections]
        refine List.map_congr_left fun e he => ?_
        by_cases hes : sameName e.name s = true
        · rw [if_pos hes]
          have hfe := findSection_unique h he hes
          have hk' : keysNamed k e.keys = [] := by simpa [keysOf, hfe] using hk
          have : keysNotNamed k e.keys = e.keys := by
            unfold keysNotNamed
            rw [List.filter_eq_self]
            intro x hx
            rw [keysNamed_eq_nil.mp hk' x hx]; rfl
          rw [this]; rfl
        · rw [if_neg hes]; rfl
      rw [this]
    unfold delete
    cases hf : findSection st s with
    | none =>
      have hk : keysNamed k (keysOf st s) = [] := by simp [keysOf, hf, keysNamed]
      rw [hsame hk, hk]
      simp only [List.map_nil, ne_eq, not_true_eq_false, and_false, not_false_eq_true, decide_true]
      rw [List.filter_eq_self.mpr (by simp)]
    | some e =>
      obtain ⟨hes, he⟩ := findSection_same hf
      have hko : keysOf st s = e.keys := by simp [keysOf, hf]
      simp only [hko]
      by_cases hk : keysNamed k e.keys = []
      · rw [if_pos hk, hsame (by rw [hko]; exact hk), hk]
        simp only [List.map_nil, ne_eq, not_true_eq_false, and_false, not_false_eq_true, decide_true]
        rw [List.filter_eq_self.mpr (by simp)]
      · rw [if_neg hk]
        by_cases hre : (!re || decide (keysNotNamed k e.keys ≠ [])) = true
        · rw [if_pos (by simpa using hre)]
          simp only
          refine (List.filter_eq_self.mpr ?_).symm
          intro d hd
          rw [decide_eq_true_eq]
          rintro ⟨h1, h2, h3, -⟩
          obtain ⟨e', he', hs', hd'⟩ := hmem d hd h2
          have : e' = e := by
            have := findSection_unique h he' hs'
            rw [hf] at this; exact (Option.some.inj this).symm
          subst this
          rw [h3] at hd'
          have := (docKeys_eq_nil ((h.keys _ he).filter _)).mp hd'.symm
          unfold keysNotNamed at hre
          rw [h1, this] at hre
          simp at hre
        · rw [if_neg (by simpa using hre)]
          simp only [Bool.or_eq_true, Bool.not_eq_true', decide_eq_true_eq, not_or, Bool.not_eq_false] at hre
          obtain ⟨hr1, hr2⟩ := hre
          have hr3 : keysNotNamed k e.keys = [] := by simpa using hr2
          simp only
          rw [doc_filter h, hmap', List.filter_map]
          have hrhs : ((doc st).filter ((fun e_1 => decide (¬ (re = true ∧ SameCI e_1.name s ∧ e_1.keys = []
                ∧ (keysNamed k e.keys).map (fun e => (e.value, e.comment)) ≠ []))) ∘
              fun e => if SameCI e.name s then { e with keys := e.keys.filter fun e => !sameName e.name k } else e))
              = (doc st).filter fun e => !sameName e.name s := by
            refine List.filter_congr fun d hd => ?_
            simp only [Function.comp]
            by_cases hs : SameCI d.name s
            · simp only [if_pos hs, sameCI_iff.mp hs]
              obtain ⟨x, hx, rfl⟩ := mem_doc.mp hd
              have : x = e := by
                have := findSection_unique h hx (sameCI_iff.mp hs)
                rw [hf] at this; exact (Option.some.inj this).symm
              subst this
              have hnil : (docSection x).keys.filter (fun e => !sameName e.name k) = [] := by
                show (docKeys x.keys).filter _ = []
                rw [← docKeys_notNamed (h.keys x he), hr3]
                simp [docKeys, firstKeys, sortByOrder]
              simp [hnil, hr1, hs, hk]
            · simp only [if_neg hs]
              have hs' : sameName d.name s = false := by
                cases hh : sameName d.name s with
                | false => rfl
                | true => exact absurd (sameCI_iff.mpr hh) hs
              simp [hs, hs']
          rw [hrhs]
          refine (List.map_id _).symm.trans (List.map_congr_left fun d hd => ?_)
          have hs := (List.mem_filter.mp hd).2
          rw [if_neg (fun hh => by rw [sameCI_iff.mp hh] at hs; cases hs)]
          rfl

end Licensecc.IniStore
