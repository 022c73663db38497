import Verif.Basic
/-!
# Model of `std::map<std::string, T>`

A list of pairs with strictly increasing keys.  `std::string::operator<` compares bytes as unsigned values
(`std::char_traits<char>::compare`), a proper prefix being smaller.
-/
namespace Licensecc

/-- `std::string::operator<`. -/
def bytesLt : Bytes → Bytes → Bool
  | _, [] => false
  | [], _ :: _ => true
  | a :: as, b :: bs => if a = b then bytesLt as bs else decide (a < b)

/-- A `std::map<std::string, α>` as the list of its pairs in iteration order. -/
abbrev SMap (α : Type) := List (Bytes × α)

namespace SMap

/-- `map[k] = v`. -/
def insert {α : Type} (k : Bytes) (v : α) : SMap α → SMap α
  | [] => [(k, v)]
  | (k', v') :: m => if k = k' then (k, v) :: m else if bytesLt k k' then (k, v) :: (k', v') :: m else (k', v') :: insert k v m

/-- `map.find(k)`. -/
def find? {α : Type} (k : Bytes) : SMap α → Option α
  | [] => none
  | (k', v') :: m => if k = k' then some v' else find? k m

end SMap

/-! ## Order lemmas -/

theorem bytesLt_irrefl (a : Bytes) : bytesLt a a = false := by
  induction a with
  | nil => rfl
  | cons x a ih => simp [bytesLt, ih]

theorem bytesLt_trans : ∀ {a b c : Bytes}, bytesLt a b = true → bytesLt b c = true → bytesLt a c = true := by
  intro a
  induction a with
  | nil => intro b c h1 h2; cases c with
    | nil => cases b <;> simp [bytesLt] at h2
    | cons => rfl
  | cons x a ih =>
    intro b c h1 h2
    match b, c with
    | [], _ => simp [bytesLt] at h1
    | _ :: _, [] => simp [bytesLt] at h2
    | y :: b, z :: c =>
      simp only [bytesLt] at h1 h2 ⊢
      split at h1
      · rename_i hxy; subst hxy
        split at h2
        · rename_i hyz; subst hyz; rw [if_pos rfl]; exact ih h1 h2
        · rename_i hyz; rw [if_neg hyz]; exact h2
      · rename_i hxy
        split at h2
        · rename_i hyz; subst hyz; rw [if_neg hxy]; exact h1
        · rename_i hyz
          have a1 : x < y := by simpa using h1
          have a2 : y < z := by simpa using h2
          have a3 : x < z := UInt8.lt_trans a1 a2
          rw [if_neg (by rintro rfl; exact UInt8.lt_irrefl _ a3)]
          simpa using a3

theorem bytesLt_total : ∀ a b : Bytes, a = b ∨ bytesLt a b = true ∨ bytesLt b a = true := by
  intro a
  induction a with
  | nil => intro b; cases b <;> simp [bytesLt]
  | cons x a ih =>
    intro b
    cases b with
    | nil => simp [bytesLt]
    | cons y b =>
      by_cases hxy : x = y
      · subst hxy
        rcases ih b with rfl | h | h <;> simp [bytesLt, *]
      · right
        have : x < y ∨ y < x := by
          simp only [UInt8.lt_iff_toNat_lt]
          have : x.toNat ≠ y.toNat := fun h => hxy (UInt8.toNat_inj.mp h)
          omega
        have hyx : ¬ y = x := fun h => hxy h.symm
        simpa [bytesLt, hxy, hyx] using this

theorem bytesLt_asymm {a b : Bytes} (h : bytesLt a b = true) : bytesLt b a = false := by
  cases hb : bytesLt b a with
  | false => rfl
  | true => have := bytesLt_trans h hb; rw [bytesLt_irrefl] at this; simp at this

namespace SMap
variable {α : Type}

/-- Strictly increasing keys: the invariant of a `std::map`. -/
def Sorted (m : SMap α) : Prop := m.Pairwise (fun p q => bytesLt p.1 q.1 = true)

theorem sorted_nil : Sorted ([] : SMap α) := List.Pairwise.nil

theorem mem_insert {k : Bytes} {v : α} {m : SMap α} {p : Bytes × α} (h : p ∈ insert k v m) : p = (k, v) ∨ p ∈ m := by
  induction m with
  | nil => simpa [insert] using h
  | cons q m ih =>
    obtain ⟨k', v'⟩ := q
    simp only [insert] at h
    split at h
    · simp at h ⊢; grind
    · split at h
      · simp at h ⊢; grind
      · simp only [List.mem_cons] at h ⊢
        rcases h with h | h
        · exact .inr (.inl h)
        · rcases ih h with h | h
          · exact .inl h
          · exact .inr (.inr h)

theorem sorted_insert {k : Bytes} {v : α} {m : SMap α} (h : Sorted m) : Sorted (insert k v m) := by
  induction m with
  | nil => simp [insert, Sorted]
  | cons q m ih =>
    obtain ⟨k', v'⟩ := q
    simp only [Sorted, List.pairwise_cons] at h
    simp only [insert]
    split
    · rename_i hk; subst hk
      simp only [Sorted, List.pairwise_cons]; exact ⟨fun p hp => h.1 p hp, h.2⟩
    · rename_i hk
      split
      · rename_i hlt
        simp only [Sorted, List.pairwise_cons, List.mem_cons]
        refine ⟨?_, h.1, h.2⟩
        rintro p (rfl | hp)
        · exact hlt
        · exact bytesLt_trans hlt (h.1 p hp)
      · rename_i hlt
        simp only [Sorted, List.pairwise_cons]
        refine ⟨?_, ih h.2⟩
        intro p hp
        rcases mem_insert hp with rfl | hp
        · rcases bytesLt_total k k' with h' | h' | h'
          · exact absurd h' hk
          · exact absurd h' hlt
          · exact h'
        · exact h.1 p hp

theorem find_insert {k k' : Bytes} {v : α} {m : SMap α} :
    find? k' (insert k v m) = if k' = k then some v else find? k' m := by
  induction m with
  | nil => simp [insert, find?]
  | cons q m ih =>
    obtain ⟨k2, v2⟩ := q
    simp only [insert]
    split
    · rename_i h; subst h
      simp only [find?]; split <;> rfl
    · rename_i h
      split
      · simp only [find?]
      · simp only [find?, ih]
        split
        · rename_i h2; subst h2; rw [if_neg (fun h3 => h h3.symm)]
        · rfl

theorem find_mem {k : Bytes} {v : α} {m : SMap α} (h : find? k m = some v) : (k, v) ∈ m := by
  induction m with
  | nil => simp [find?] at h
  | cons q m ih =>
    obtain ⟨k2, v2⟩ := q
    simp only [find?] at h
    split at h
    · rename_i hk; subst hk; simp at h; subst h; simp
    · simp [ih h]

theorem find_of_mem {k : Bytes} {v : α} {m : SMap α} (hs : Sorted m) (h : (k, v) ∈ m) : find? k m = some v := by
  induction m with
  | nil => simp at h
  | cons q m ih =>
    obtain ⟨k2, v2⟩ := q
    simp only [Sorted, List.pairwise_cons] at hs
    simp only [find?]
    rcases List.mem_cons.mp h with h | h
    · cases h; simp
    · have hl := hs.1 _ h
      have : ¬ k = k2 := by rintro rfl; rw [bytesLt_irrefl] at hl; simp at hl
      rw [if_neg this]
      exact ih hs.2 h

theorem mem_iff_find {k : Bytes} {v : α} {m : SMap α} (hs : Sorted m) : (k, v) ∈ m ↔ find? k m = some v :=
  ⟨find_of_mem hs, find_mem⟩

/-- A `std::map` is determined by its lookups. -/
theorem ext {m m' : SMap α} (hs : Sorted m) (hs' : Sorted m') (h : ∀ k, find? k m = find? k m') : m = m' := by
  induction m generalizing m' with
  | nil =>
    cases m' with
    | nil => rfl
    | cons q m' => have := h q.1; simp [find?] at this
  | cons p m ih =>
    obtain ⟨k, v⟩ := p
    cases m' with
    | nil => have := h k; simp [find?] at this
    | cons q m' =>
      obtain ⟨k', v'⟩ := q
      have hm : (k, v) ∈ (k', v') :: m' := by
        apply find_mem; rw [← h k]; simp [find?]
      have hm' : (k', v') ∈ (k, v) :: m := by
        apply find_mem; rw [h k']; simp [find?]
      simp only [Sorted, List.pairwise_cons] at hs hs'
      have hkk : k = k' ∧ v = v' := by
        rcases List.mem_cons.mp hm with h1 | h1
        · cases h1; exact ⟨rfl, rfl⟩
        · rcases List.mem_cons.mp hm' with h2 | h2
          · cases h2; exact ⟨rfl, rfl⟩
          · have a := hs'.1 _ h1
            have b := hs.1 _ h2
            rw [bytesLt_asymm a] at b; simp at b
      obtain ⟨rfl, rfl⟩ := hkk
      congr 1
      apply ih hs.2 hs'.2
      intro x
      have hx := h x
      simp only [find?] at hx
      by_cases hxk : x = k
      · subst hxk
        have n1 : find? x m = none := by
          cases hf : find? x m with
          | none => rfl
          | some w => have := hs.1 _ (find_mem hf); rw [bytesLt_irrefl] at this; simp at this
        have n2 : find? x m' = none := by
          cases hf : find? x m' with
          | none => rfl
          | some w => have := hs'.1 _ (find_mem hf); rw [bytesLt_irrefl] at this; simp at this
        rw [n1, n2]
      · simpa [hxk] using hx

end SMap
end Licensecc
