import Verif.Spec.Order
import Verif.Model.SortedMap
/-!
# The order of `std::map<std::string, …>` is byte order
-/
namespace Licensecc
open Spec

theorem before_iff : ∀ {a b : Bytes}, Before a b ↔ bytesLt a b = true := by
  intro a
  induction a with
  | nil =>
    intro b
    cases b with
    | nil => simp [Before, bytesLt]
    | cons c r => simp only [bytesLt, iff_true]; exact .inl ⟨c, r, rfl⟩
  | cons u a ih =>
    intro b
    cases b with
    | nil => simp [Before, bytesLt]
    | cons v b =>
      rw [bytesLt]
      by_cases huv : u = v
      · subst huv
        rw [if_pos rfl, ← ih]
        unfold Before
        constructor
        · rintro (⟨c, r, h⟩ | ⟨p, x, y, s, t, h1, h2, hlt⟩)
          · exact .inl ⟨c, r, by simpa using h⟩
          · cases p with
            | nil =>
              simp only [List.nil_append, List.cons.injEq] at h1 h2
              rw [← h1.1, ← h2.1] at hlt
              omega
            | cons z p =>
              simp only [List.cons_append, List.cons.injEq] at h1 h2
              exact .inr ⟨p, x, y, s, t, h1.2, h2.2, hlt⟩
        · rintro (⟨c, r, rfl⟩ | ⟨p, x, y, s, t, rfl, rfl, hlt⟩)
          · exact .inl ⟨c, r, rfl⟩
          · exact .inr ⟨u :: p, x, y, s, t, rfl, rfl, hlt⟩
      · rw [if_neg huv, decide_eq_true_iff, UInt8.lt_iff_toNat_lt]
        unfold Before
        constructor
        · rintro (⟨c, r, h⟩ | ⟨p, x, y, s, t, h1, h2, hlt⟩)
          · simp only [List.cons_append, List.cons.injEq] at h
            exact absurd h.1.symm huv
          · cases p with
            | nil =>
              simp only [List.nil_append, List.cons.injEq] at h1 h2
              rw [h1.1, h2.1]; exact hlt
            | cons z p =>
              simp only [List.cons_append, List.cons.injEq] at h1 h2
              exact absurd (h1.1.trans h2.1.symm) huv
        · intro h
          exact .inr ⟨[], u, v, a, b, rfl, rfl, h⟩

instance (a b : Bytes) : Decidable (Before a b) := decidable_of_iff _ before_iff.symm

end Licensecc
