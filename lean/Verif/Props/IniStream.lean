import Verif.Props.IniFile
import Verif.Model.IniStream
/-!
# C78: INI objects and the streams of C++
-/
namespace Licensecc
open Ini hiding loadComment load parse step
open IniStore IniStream
open Spec.IniStore Spec.IniFile

namespace IniStream

theorem takeWhile_drop {p : UInt8 → Bool} : ∀ (s : Bytes) (k : Nat), k ≤ (s.takeWhile p).length → (s.drop k).takeWhile p = (s.takeWhile p).drop k := by
  intro s
  induction s with
  | nil => intro k _; simp
  | cons c s ih =>
    intro k hk
    cases k with
    | zero => rfl
    | succ k =>
      by_cases hc : p c = true
      · rw [List.takeWhile_cons_of_pos hc] at hk ⊢
        exact ih k (by simpa using hk)
      · rw [List.takeWhile_cons_of_neg hc] at hk
        simp at hk

/-- What the loop collects: everything up to the first NUL. -/
theorem readLoop_eq (peeks : Bool) : ∀ (fuel : Nat) (rest data : Bytes), rest.length < fuel →
    readLoop peeks fuel ⟨true, rest⟩ data = data ++ rest.takeWhile (· ≠ 0) := by
  intro fuel
  induction fuel with
  | zero => intro rest data h; omega
  | succ fuel ih =>
    intro rest data h
    rw [readLoop, get, if_pos rfl]
    dsimp only
    have hw : rest.takeWhile (· ≠ 0) = (rest.takeWhile (· ≠ 0)).take (512 - 1) ++ (rest.takeWhile (· ≠ 0)).drop (512 - 1) := (List.take_append_drop _ _).symm
    have hle : ((rest.takeWhile (· ≠ 0)).take (512 - 1)).length ≤ (rest.takeWhile (· ≠ 0)).length := by rw [List.length_take]; omega
    have htd := takeWhile_drop rest _ hle
    have hlen := List.length_take (i := 512 - 1) (l := rest.takeWhile (· ≠ 0))
    have hall : (rest.takeWhile (· ≠ 0)).length ≤ rest.length := (List.takeWhile_prefix _).length_le
    have hdrop : (rest.takeWhile (· ≠ 0)).drop ((rest.takeWhile (· ≠ 0)).take (512 - 1)).length = (rest.takeWhile (· ≠ 0)).drop (512 - 1) := by
      rw [hlen]
      by_cases h1 : 512 - 1 ≤ (rest.takeWhile (· ≠ 0)).length
      · rw [Nat.min_eq_left h1]
      · rw [Nat.min_eq_right (by omega), List.drop_of_length_le (Nat.le_refl _), List.drop_of_length_le (by omega)]
    rw [hdrop] at htd
    generalize ht : (rest.takeWhile (· ≠ 0)).take (512 - 1) = t at *
    split
    · rename_i hg
      have hne : t ≠ [] := by
        intro h0; subst h0; simp at hg
      have hpos : 0 < t.length := List.length_pos_iff.mpr hne
      rw [hg, ih (rest.drop t.length) (data ++ t) (by rw [List.length_drop]; omega), htd, List.append_assoc]
      congr 1
      exact hw.symm
    · rename_i hg
      congr 1
      rw [hw]
      by_cases h0 : t = []
      · have hl0 : t.length = 0 := by rw [h0]; rfl
        have : rest.takeWhile (· ≠ 0) = [] := List.length_eq_zero_iff.mp (by omega)
        rw [this, h0]; rfl
      · have hr : rest.drop t.length = [] := by
          simp only [Bool.and_eq_true, decide_eq_true_eq, Bool.not_eq_true', Bool.and_eq_false_iff, not_and] at hg
          have := hg (by simpa using h0)
          cases hd : rest.drop t.length with
          | nil => rfl
          | cons => rw [hd] at this; simp at this
        have : (rest.takeWhile (· ≠ 0)).drop (512 - 1) = [] := by rw [← htd, hr]; rfl
        rw [this, List.append_nil]

theorem loadStream_good (o : Options) (copy peeks : Bool) (rest : Bytes) (st : Store) :
    loadStream o copy peeks ⟨true, rest⟩ st = loadBytes o copy (rest.takeWhile (· ≠ 0)) st := by
  unfold loadStream
  rw [readLoop_eq peeks _ _ _ (Nat.lt_succ_self _)]
  rfl

end IniStream

/-- C78. Loading from a stream of C++ does what loading the bytes does that it gives, up to the first NUL, however many there are. -/
theorem C78_stream_load (o : Options) (copy peeks : Bool) {content : Bytes} (h : 0 ∉ content) (rest : Bytes) (hr : rest = [] ∨ rest.head? = some 0) (st : Store) :
    loadStream o copy peeks ⟨true, content ++ rest⟩ st = (.ok, if content = [] then st else loadEvery o copy content st) := by
  rw [loadStream_good]
  have : (content ++ rest).takeWhile (· ≠ 0) = content := by
    induction content with
    | nil =>
      rcases hr with rfl | hr
      · rfl
      · cases rest with
        | nil => rfl
        | cons c rest => simp at hr; subst hr; rfl
    | cons c s ih =>
      have hc : c ≠ 0 := fun h0 => h (by simp [h0])
      rw [List.cons_append, List.takeWhile_cons_of_pos (by simpa using hc), ih (fun h0 => h (by simp [h0]))]
  rw [this]
  unfold loadBytes
  by_cases h0 : content = []
  · subst h0; rfl
  · rw [if_neg h0, if_neg (by simpa using h0)]

/-- C78 (the property "failures are reported" fails for streams). A stream that is not good, as that of a file that could not be opened, gives SI_OK and
    leaves the object as it is. -/
theorem C78_stream_unopened (o : Options) (copy peeks : Bool) (rest : Bytes) (st : Store) : loadStream o copy peeks ⟨false, rest⟩ st = (.ok, st) := rfl

/-- C78. An object that is saved to a stream which takes no more than some bytes, and loaded from one that may break before their end: both report SI_OK, and
    what is loaded is a beginning of what was saved. -/
theorem C78_stream_torn (o : Options) (hm : o.multiLine = false) (sig copy peeks : Bool) {st : Store} (h : Reachable o st)
    (hd : DocOk o st.fileComment (contents o st)) (room : Nat) {p : Bytes} (hp : p <+: (saveStream o sig st room).2) :
    (saveStream o sig st room).1 = .ok ∧ (loadStream o copy peeks ⟨true, p⟩ {}).1 = .ok
    ∧ CutDoc (contents o (loadStream o copy peeks ⟨true, p⟩ {}).2) (contents o st) := by
  have hq : p.takeWhile (· ≠ 0) <+: save o sig st :=
    ((List.takeWhile_prefix _).trans hp).trans (List.take_prefix _ _)
  have ht := (C78_torn o hm sig copy h hd hq).1
  rw [loadStream_good]
  unfold loadBytes
  refine ⟨rfl, ?_, ?_⟩
  · split <;> rfl
  · split
    · rename_i h0
      rw [List.length_eq_zero_iff.mp h0] at ht
      have : loadEvery o copy [] {} = {} := by
        unfold loadEvery dropMark
        cases o.utf8 <;> rfl
      rw [this] at ht
      exact ht
    · exact ht

/-! ## Examples -/

/-- Two pieces of the array of 512, and a NUL with something behind it. -/
example : readLoop true 700 ⟨true, List.replicate 600 97 ++ 0 :: b!"rest"⟩ [] = List.replicate 600 97 := by decide +kernel
example : readLoop false 700 ⟨true, List.replicate 511 97⟩ [] = List.replicate 511 97 ∧ readLoop true 700 ⟨true, List.replicate 511 97⟩ [] = List.replicate 511 97 := by
  decide +kernel
example : (loadStream {} false true ⟨true, b!"[s]\nk=v\n"⟩ {}).2 = loadEvery {} false b!"[s]\nk=v\n" {} := by
  rw [show (b!"[s]\nk=v\n" : Bytes) = b!"[s]\nk=v\n" ++ [] from (List.append_nil _).symm, C78_stream_load _ _ _ (by decide) [] (.inl rfl)]
  rfl

end Licensecc
