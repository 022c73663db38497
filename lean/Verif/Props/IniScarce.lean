import Verif.Model.IniScarce
import Verif.Spec.IniScarce
import Verif.Props.IniSave
import Verif.Props.IniFile
/-!
# C88: INI objects when memory runs out
-/
namespace Licensecc
open Ini hiding getValue getAllKeys getSectionSize setKey load addSection
open Licensecc.Spec (SameCI)
open IniStore hiding setKey addEntry addSection addAll loadEvery change run
open Spec.IniStore Spec.IniScarce
open IniFile (Event Code Reading)
open IniScarce

set_option linter.unusedSimpArgs false

namespace IniScarce

theorem request_some {n b b' : Nat} (h : request n b = some b') : b = b' + n := by
  unfold request at h
  split at h
  · cases h; omega
  · cases h

theorem request_enough {n b : Nat} (h : n ≤ b) : request n b = some (b - n) := if_pos h

theorem insertKey_some {copy : Bool} {x : Key} {keys : List Key} {b b' : Nat} (h : (insertKey copy x keys b).1 = some b') :
    (insertKey copy x keys b).2 = insertBy Key.name x keys := by
  unfold insertKey at h ⊢
  split at h
  · cases h
  · split at h
    · cases h
    · split at h
      · cases h
      · simp_all

theorem insertKey_none {copy : Bool} {x : Key} {keys : List Key} {b : Nat} (h : (insertKey copy x keys b).1 = none) :
    (insertKey copy x keys b).2 = keys := by
  unfold insertKey at h ⊢
  split
  · rfl
  · split
    · rfl
    · split
      · rfl
      · simp_all

theorem copies_enough {yes : Bool} {b : Nat} (h : 2 ≤ b) : ∃ b', copies yes b = some b' ∧ b ≤ b' + 2 := by
  cases yes
  · exact ⟨b - 0, request_enough (Nat.zero_le b), by omega⟩
  · exact ⟨b - 2, request_enough h, by omega⟩

theorem insertKey_enough {copy : Bool} {x : Key} {keys : List Key} {b : Nat} (h : 5 ≤ b) :
    ∃ b', (insertKey copy x keys b).1 = some b' ∧ b ≤ b' + 5 := by
  obtain ⟨b1, h1, l1⟩ := copies_enough (yes := copy) (show 2 ≤ b by omega)
  obtain ⟨b2, h2, l2⟩ := copies_enough (yes := copy) (show 2 ≤ b1 by omega)
  refine ⟨b2 - 1, ?_, by omega⟩
  unfold insertKey
  simp only [h1, h2, request_enough (show 1 ≤ b2 by omega)]

theorem setKey_some {o : Options} {k v : Bytes} {c : Option Bytes} {force copy : Bool} {n : Nat} {keys : List Key} {b b' : Nat}
    (h : (setKey o k v c force copy n keys b).1 = some b') :
    (setKey o k v c force copy n keys b).2 = (IniStore.setKey o k v c force n keys).2 := by
  unfold setKey at h ⊢
  unfold IniStore.setKey
  split at h
  · rename_i h0
    simp only [if_pos h0]
    exact insertKey_some h
  · rename_i h0
    simp only [if_neg h0]
    split at h
    · rename_i h1
      simp only [if_pos h1]
      simp only at h
      split at h
      · cases h
      · rename_i b1 h2
        exact insertKey_some h
    · rename_i h1
      simp only [if_neg h1]
      split at h
      · rename_i h2
        simp only [if_pos h2]
        exact insertKey_some h
      · rename_i h2
        simp only [if_neg h2]
        split at h
        · cases h
        · rename_i b1 h3
          simp only [h3]

theorem setKey_none {o : Options} {k v : Bytes} {c : Option Bytes} {force copy : Bool} {n : Nat} {keys : List Key} {b : Nat}
    (h : (setKey o k v c force copy n keys b).1 = none) :
    (setKey o k v c force copy n keys b).2 = keys
    ∨ (o.multiKey = true ∧ force = true ∧ keysNamed k keys ≠ [] ∧ (setKey o k v c force copy n keys b).2 = keysNotNamed k keys) := by
  unfold setKey at h ⊢
  split at h
  · rename_i h0
    simp only [if_pos h0]
    exact .inl (insertKey_none h)
  · rename_i h0
    simp only [if_neg h0]
    split at h
    · rename_i h1
      simp only [if_pos h1]
      simp only at h
      split at h
      · rename_i h2
        simp only [h2]
        exact .inl (by simp)
      · rename_i b1 h2
        simp only [Bool.and_eq_true] at h1
        exact .inr ⟨h1.1, h1.2, h0, insertKey_none h⟩
    · rename_i h1
      simp only [if_neg h1]
      split at h
      · rename_i h2
        simp only [if_pos h2]
        exact .inl (insertKey_none h)
      · rename_i h2
        simp only [if_neg h2]
        split at h
        · rename_i h3
          simp only [h3]
          exact .inl (by simp)
        · cases h

theorem setKey_enough {o : Options} {k v : Bytes} {c : Option Bytes} {force copy : Bool} {n : Nat} {keys : List Key} {b : Nat} (h : 7 ≤ b) :
    ∃ b', (setKey o k v c force copy n keys b).1 = some b' ∧ b ≤ b' + 7 := by
  unfold setKey
  split
  · obtain ⟨b', h1, h2⟩ := insertKey_enough (copy := copy) (x := ⟨k, c, n, v⟩) (keys := keys) (show 5 ≤ b by omega)
    exact ⟨b', h1, by omega⟩
  · split
    · obtain ⟨b1, h1, l1⟩ := copies_enough (yes := (oldest n (keysNamed k keys)).2.isSome) (show 2 ≤ b by omega)
      simp only [h1]
      obtain ⟨b', h2, l2⟩ := insertKey_enough (copy := copy)
        (x := ⟨k, (oldest n (keysNamed k keys)).2.or c, (oldest n (keysNamed k keys)).1, v⟩) (keys := keysNotNamed k keys) (show 5 ≤ b1 by omega)
      exact ⟨b', h2, by omega⟩
    · split
      · obtain ⟨b', h1, h2⟩ := insertKey_enough (copy := copy) (x := ⟨k, c, n, v⟩) (keys := keys) (show 5 ≤ b by omega)
        exact ⟨b', h1, by omega⟩
      · obtain ⟨b1, h1, l1⟩ := copies_enough (yes := copy) (show 2 ≤ b by omega)
        simp only [h1]
        exact ⟨b1, rfl, by omega⟩

theorem addSection_some {s : Bytes} {c : Option Bytes} {copy : Bool} {b b' : Nat} {st : Store} (h : (addSection s c copy b st).1 = some b') :
    (addSection s c copy b st).2 = (IniStore.addSection s c st).2 := by
  unfold addSection at h ⊢
  cases hf : findSection st s with
  | some e => simp only [IniStore.addSection, hf]
  | none =>
    rw [hf] at h
    simp only at h ⊢
    split at h
    · cases h
    · split at h
      · cases h
      · simp_all

theorem addSection_none {s : Bytes} {c : Option Bytes} {copy : Bool} {b : Nat} {st : Store} (h : (addSection s c copy b st).1 = none) :
    ∃ m, st.order ≤ m ∧ (addSection s c copy b st).2 = { st with order := m } := by
  unfold addSection at h ⊢
  cases hf : findSection st s with
  | some e => rw [hf] at h; cases h
  | none =>
    rw [hf] at h
    simp only at h ⊢
    split
    · exact ⟨st.order, Nat.le_refl _, rfl⟩
    · split
      · exact ⟨st.order + 1, Nat.le_succ _, rfl⟩
      · simp_all

theorem addSection_enough {s : Bytes} {c : Option Bytes} {copy : Bool} {b : Nat} {st : Store} (h : 3 ≤ b) :
    ∃ b', (addSection s c copy b st).1 = some b' ∧ b ≤ b' + 3 := by
  unfold addSection
  cases hf : findSection st s with
  | some e => exact ⟨b, rfl, by omega⟩
  | none =>
    obtain ⟨b1, h1, l1⟩ := copies_enough (yes := copy) (show 2 ≤ b by omega)
    simp only [h1, request_enough (show 1 ≤ b1 by omega)]
    exact ⟨b1 - 1, rfl, by omega⟩

/-- A completed `AddEntry` is that of Model/IniStore. -/
theorem addEntry_some {o : Options} {s : Bytes} {kv : Option (Bytes × Bytes)} {c : Option Bytes} {force copy : Bool} {b b' : Nat} {st : Store}
    (h : (addEntry o s kv c force copy b st).1 = some b') :
    (addEntry o s kv c force copy b st).2 = (IniStore.addEntry o s kv c force st).2 := by
  unfold addEntry at h ⊢
  split at h
  · cases h
  · rename_i b1 h1
    simp only [h1]
    simp only at h
    split at h
    · cases h
    · rename_i b2 h2
      have h3 := addSection_some h2
      unfold IniStore.addEntry
      cases kv with
      | none => exact h3
      | some kv =>
        simp only at h ⊢
        rw [setKey_some h, h3]

theorem addEntry_enough {o : Options} {s : Bytes} {kv : Option (Bytes × Bytes)} {c : Option Bytes} {force copy : Bool} {b : Nat} {st : Store} (h : 12 ≤ b) :
    ∃ b', (addEntry o s kv c force copy b st).1 = some b' ∧ b ≤ b' + 12 := by
  unfold addEntry
  obtain ⟨b1, h1, l1⟩ := copies_enough (yes := copy && c.isSome) (show 2 ≤ b by omega)
  simp only [h1]
  obtain ⟨b2, h2, l2⟩ := addSection_enough (s := s) (c := if kv.isNone = true then c else none) (copy := copy) (st := st) (show 3 ≤ b1 by omega)
  simp only [h2]
  cases kv with
  | none => exact ⟨b2, rfl, by omega⟩
  | some kv =>
    simp only
    obtain ⟨b3, h3, l3⟩ := setKey_enough (o := o) (k := kv.1) (v := kv.2) (c := c) (force := force) (copy := copy)
      (n := (addSection s (if (some kv).isNone = true then c else none) copy b1 st).2.order + 1)
      (keys := ((findSection (addSection s (if (some kv).isNone = true then c else none) copy b1 st).2 s).map (·.keys)).getD []) (show 7 ≤ b2 by omega)
    exact ⟨b3, h3, by omega⟩

theorem onSection_keys {o : Options} {st : Store} (h : Inv o st) (s : Bytes) (f : List Key → List Key) :
    onSection s (fun _ => f (keysOf st s)) st.sections = onSection s f st.sections := by
  unfold onSection
  refine List.map_congr_left fun e he => ?_
  cases hs : sameName e.name s with
  | false => rfl
  | true =>
    have : keysOf st s = e.keys := by
      unfold keysOf
      rw [findSection_unique h he hs]
      rfl
    rw [this]

theorem onSection_id (s : Bytes) (l : List Sect) : onSection s (fun k => k) l = l := by
  unfold onSection
  exact List.map_congr_left (g := id) (fun e _ => by split <;> rfl) |>.trans (List.map_id l)

/-- What is left of an `AddEntry` that ended with `std::bad_alloc`; the load order has perhaps been increased. -/
theorem addEntry_none {o : Options} {s : Bytes} {kv : Option (Bytes × Bytes)} {c : Option Bytes} {force copy : Bool} {b : Nat} {st : Store} (hi : Inv o st)
    (h : (addEntry o s kv c force copy b st).1 = none) :
    ∃ (x : Store) (m : Nat), x.order ≤ m ∧ (addEntry o s kv c force copy b st).2 = { x with order := m } ∧
      (x = st ∨ (kv.isSome = true ∧ x = (IniStore.addEntry o s none none false st).2)
        ∨ (o.multiKey = true ∧ force = true ∧ ∃ k v, kv = some (k, v) ∧ x = (IniStore.delete s (some k) false st).2)) := by
  unfold addEntry at h ⊢
  split at h
  · rename_i h1
    simp only [h1]
    exact ⟨st, st.order, Nat.le_refl _, rfl, .inl rfl⟩
  · rename_i b1 h1
    simp only [h1]
    simp only at h
    split at h
    · rename_i h2
      simp only [h2]
      obtain ⟨m, hm, h3⟩ := addSection_none h2
      exact ⟨st, m, hm, h3, .inl rfl⟩
    · rename_i b2 h2
      have h3 := addSection_some h2
      cases kv with
      | none => cases h
      | some kv =>
        obtain ⟨k, v⟩ := kv
        simp only at h ⊢
        simp only [Option.isNone_some, Bool.false_eq_true, if_false] at h h3 ⊢
        rw [h3] at h ⊢
        have hi1 := hi.addSection s none
        rcases setKey_none h with h4 | ⟨h5, h6, h7, h4⟩
        · refine ⟨(IniStore.addSection s none st).2, _, Nat.le_succ _, ?_, .inr (.inl ⟨rfl, rfl⟩)⟩
          rw [h4]
          have := onSection_keys hi1 s fun k => k
          rw [onSection_id] at this
          show ({ (IniStore.addSection s none st).2 with order := _, sections := onSection s (fun _ => keysOf (IniStore.addSection s none st).2 s) _ } : Store) = _
          rw [this]
        · have h8 : (IniStore.addSection s none st).2 = st := by
            unfold IniStore.addSection
            cases hf : findSection st s with
            | some e => rfl
            | none =>
              refine absurd ?_ h7
              show keysNamed k (keysOf (IniStore.addSection s none st).2 s) = []
              rw [keysOf_addSection]
              unfold keysOf
              rw [hf]
              rfl
          rw [h8] at h4 h7 ⊢
          have h10 : (IniStore.delete s (some k) false st).2 = { st with sections := onSection s (keysNotNamed k) st.sections } := by
            cases hf : findSection st s with
            | none => rw [hf] at h7; exact absurd rfl h7
            | some e =>
              have h9 : keysNamed k e.keys ≠ [] := by rw [hf] at h7; exact h7
              simp only [IniStore.delete, hf, h9, if_false, Bool.not_false, Bool.true_or, if_true]
          refine ⟨(IniStore.delete s (some k) false st).2, st.order + 1, ?_, ?_, .inr (.inr ⟨h5, h6, k, v, rfl, rfl⟩)⟩
          · rw [h10]; exact Nat.le_succ _
          · rw [h4, h10]
            exact congrArg (fun l => ({ st with order := st.order + 1, sections := l } : Store)) (onSection_keys hi s (keysNotNamed k))

theorem Inv.later {o : Options} {st : Store} (h : Inv o st) {m : Nat} (hm : st.order ≤ m) : Inv o { st with order := m } :=
  ⟨h.sorted, fun s hs => Nat.le_trans (h.bound s hs) hm, h.orders, fun s hs => (h.keys s hs).mono hm⟩

/-- `SetValue` and `Delete` (src/library/ini/SimpleIni.h:1848-1950, 2529-2586) with so many requests granted: has it returned, and the object. `Delete` requests nothing. -/
def change (o : Options) (c : Change) (budget : Nat) (st : Store) : Bool × Store :=
  match c with
  | .set s k v c force => let r := addEntry o s (some (k, v)) c force true budget st; (r.1.isSome, r.2)
  | .addSection s c => let r := addEntry o s none c false true budget st; (r.1.isSome, r.2)
  | .delete s k removeEmpty => (true, (IniStore.delete s k removeEmpty st).2)

/-- The object after a history of changes, the newest first, each with the requests granted to it; exceptions are caught by the caller. -/
def run (o : Options) : List (Change × Nat) → Store
  | [] => {}
  | (c, b) :: h => (change o c b (run o h)).2

/-- Which of them returned. -/
def returned (o : Options) : List (Change × Nat) → List (Change × Bool)
  | [] => []
  | (c, b) :: h => (c, (change o c b (run o h)).1) :: returned o h

theorem change_true {o : Options} {c : Change} {b : Nat} {st : Store} (h : (change o c b st).1 = true) :
    (change o c b st).2 = (IniStore.change o c st).2 := by
  cases c with
  | set s k v c force =>
    obtain ⟨b', h1⟩ := Option.isSome_iff_exists.mp h
    exact addEntry_some h1
  | addSection s c =>
    obtain ⟨b', h1⟩ := Option.isSome_iff_exists.mp h
    exact addEntry_some h1
  | delete s k re => rfl

theorem change_false {o : Options} {c : Change} {b : Nat} {st : Store} (hi : Inv o st) (h : (change o c b st).1 = false) :
    ∃ (r : List Change) (x : Store) (m : Nat), Remains o.multiKey c r ∧ x.order ≤ m ∧ (change o c b st).2 = { x with order := m }
      ∧ x = r.foldr (fun c st => (IniStore.change o c st).2) st := by
  cases c with
  | set s k v c force =>
    have h1 : (addEntry o s (some (k, v)) c force true b st).1 = none := by
      simp only [change] at h
      cases h2 : (addEntry o s (some (k, v)) c force true b st).1 with
      | none => rfl
      | some b' => rw [h2] at h; cases h
    obtain ⟨x, m, hm, h2, h3⟩ := addEntry_none hi h1
    rcases h3 with rfl | ⟨_, rfl⟩ | ⟨h4, rfl, k', v', h5, rfl⟩
    · exact ⟨[], _, m, .nothing _, hm, h2, rfl⟩
    · exact ⟨[.addSection s none], _, m, .onlySection .., hm, h2, rfl⟩
    · cases h5
      exact ⟨[.delete s (some k) false], _, m, .onlyDeletion _ _ _ _ h4, hm, h2, rfl⟩
  | addSection s c =>
    have h1 : (addEntry o s none c false true b st).1 = none := by
      simp only [change] at h
      cases h2 : (addEntry o s none c false true b st).1 with
      | none => rfl
      | some b' => rw [h2] at h; cases h
    obtain ⟨x, m, hm, h2, h3⟩ := addEntry_none hi h1
    rcases h3 with rfl | ⟨h4, _⟩ | ⟨_, h4, _⟩
    · exact ⟨[], _, m, .nothing _, hm, h2, rfl⟩
    · cases h4
    · cases h4
  | delete s k re => cases h

theorem Inv.fold {o : Options} : ∀ {r : List Change} {st : Store}, Inv o st → Inv o (r.foldr (fun c st => (IniStore.change o c st).2) st)
  | [], _, h => h
  | c :: r, _, h => IniStore.Inv.change (Inv.fold (r := r) h) c

theorem doc_fold {o : Options} (m : List Change) : ∀ {r : List Change} {st : Store}, Inv o st → doc st = docOf o.multiKey m →
    doc (r.foldr (fun c st => (IniStore.change o c st).2) st) = docOf o.multiKey (r ++ m)
  | [], _, _, hd => hd
  | c :: r, st, h, hd => by
    show doc (IniStore.change o c (r.foldr (fun c st => (IniStore.change o c st).2) st)).2 = c.apply o.multiKey (docOf o.multiKey (r ++ m))
    rw [doc_change (Inv.fold h), doc_fold m h hd]

theorem run_made (o : Options) : ∀ h : List (Change × Nat), Inv o (run o h) ∧ ∃ m, Made o.multiKey (returned o h) m ∧ doc (run o h) = docOf o.multiKey m
  | [] => ⟨Inv.empty o, [], .start, by simp [run, docOf, doc, sortByOrder]⟩
  | (c, b) :: h => by
    obtain ⟨hi, m, h1, h2⟩ := run_made o h
    cases hc : (change o c b (run o h)).1 with
    | true =>
      have h3 := change_true hc
      refine ⟨by rw [run, h3]; exact hi.change c, c :: m, ?_, ?_⟩
      · rw [returned, hc]; exact .done c h1
      · rw [run, h3, doc_change hi, h2]; rfl
    | false =>
      obtain ⟨r, x, n, h3, h4, h5, rfl⟩ := change_false hi hc
      refine ⟨by rw [run, h5]; exact Inv.later (Inv.fold hi) h4, r ++ m, ?_, ?_⟩
      · rw [returned, hc]; exact .refused c h1 h3
      · rw [run, h5]; exact doc_fold m hi h2

end IniScarce

/-- C88. After any history of changes, some of which ended with `std::bad_alloc`: there is a history of complete changes - those that returned, and of
    each of the others what `Remains` says - so that the object contains exactly what that history makes of an empty document, and shows exactly its values. -/
theorem C88_contents (o : Options) (h : List (Change × Nat)) : ∃ m, Made o.multiKey (returned o h) m
    ∧ contents o (run o h) = docOf o.multiKey m
    ∧ ∀ s k, (getAllValues o (run o h) s k).map (·.value) = valuesOf o.multiKey s k m := by
  obtain ⟨hi, m, h1, h2⟩ := run_made o h
  refine ⟨m, h1, by rw [contents_eq hi, h2], fun s k => ?_⟩
  rw [values_contents hi, contents_eq hi, h2, ← C74_values o m s k, values_contents (Inv.run o m), C74_contents]

/-- C88. A change that returns has done what it does with memory enough, and with twelve requests granted every change returns. -/
theorem C88_returns (o : Options) (c : Change) (b : Nat) (st : Store) :
    ((change o c b st).1 = true → (change o c b st).2 = (IniStore.change o c st).2) ∧ (12 ≤ b → (change o c b st).1 = true) := by
  refine ⟨change_true, fun hb => ?_⟩
  cases c with
  | set s k v c force =>
    obtain ⟨b', h1, _⟩ := addEntry_enough (o := o) (s := s) (kv := some (k, v)) (c := c) (force := force) (copy := true) (st := st) hb
    simp only [change, h1, Option.isSome_some]
  | addSection s c =>
    obtain ⟨b', h1, _⟩ := addEntry_enough (o := o) (s := s) (kv := none) (c := c) (force := false) (copy := true) (st := st) hb
    simp only [change, h1, Option.isSome_some]
  | delete s k re => rfl

namespace IniScarce

/-- What `FindEntry` finds in these data, and the object with the comment of the file. -/
def found (o : Options) (copy : Bool) (s : Bytes) (st : Store) : List Found × Store :=
  let p := findFileComment st (cut (dropMark o s))
  (findEvery o copy (p.2.length + 1) (.named []) none p.2, { st with fileComment := p.1 })

theorem addAll_some {o : Options} {copy : Bool} : ∀ {l : List Found} {b b' : Nat} {st : Store}, (addAll o copy l b st).1 = some b' →
    (addAll o copy l b st).2 = IniStore.addAll o l st
  | [], _, _, _, _ => rfl
  | f :: l, b, b', st, h => by
    unfold addAll at h ⊢
    simp only at h ⊢
    split at h
    · cases h
    · rename_i b1 h1
      rw [addAll_some h, addEntry_some h1]
      rfl

theorem addAll_enough {o : Options} {copy : Bool} : ∀ {l : List Found} {b : Nat} {st : Store}, 12 * l.length ≤ b → ∃ b', (addAll o copy l b st).1 = some b'
  | [], b, _, _ => ⟨b, rfl⟩
  | f :: l, b, st, h => by
    simp only [List.length_cons] at h
    obtain ⟨b1, h1, h2⟩ := addEntry_enough (o := o) (s := f.sect) (kv := f.kv) (c := f.comment) (force := false) (copy := copy) (st := st)
      (show 12 ≤ b by omega)
    unfold addAll
    simp only [h1]
    exact addAll_enough (by omega)

theorem addAll_none {o : Options} {copy : Bool} : ∀ {l : List Found} {b : Nat} {st : Store}, Inv o st → (addAll o copy l b st).1 = none →
    ∃ (before : List Found) (f : Found) (rest : List Found) (x : Store) (m : Nat), l = before ++ f :: rest ∧ x.order ≤ m ∧ (addAll o copy l b st).2 = { x with order := m }
      ∧ (x = IniStore.addAll o before st ∨ (f.kv.isSome = true ∧ x = (IniStore.addEntry o f.sect none none false (IniStore.addAll o before st)).2))
  | [], _, _, _, h => by cases h
  | f :: l, b, st, hi, h => by
    unfold addAll at h ⊢
    simp only at h ⊢
    split at h
    · rename_i h1
      obtain ⟨x, m, h2, h3, h4⟩ := addEntry_none hi h1
      simp only [h1]
      refine ⟨[], f, l, x, m, rfl, h2, h3, ?_⟩
      rcases h4 with rfl | ⟨h4, rfl⟩ | ⟨_, h5, _⟩
      · exact .inl rfl
      · exact .inr ⟨h4, rfl⟩
      · cases h5
    · rename_i b1 h1
      have h2 := addEntry_some h1
      obtain ⟨before, g, rest, x, m, h3, h4, h5, h6⟩ := addAll_none (l := l) (by rw [h2]; exact hi.addEntry _ _ _ _) h
      refine ⟨f :: before, g, rest, x, m, by rw [h3]; rfl, h4, h5, ?_⟩
      rw [h2] at h6
      exact h6

theorem Inv.comment {o : Options} {st : Store} (h : Inv o st) (c : Option Bytes) : Inv o { st with fileComment := c } := ⟨h.sorted, h.bound, h.orders, h.keys⟩

theorem addSection_values {o : Options} {st : Store} (hi : Inv o st) (s' s k : Bytes) :
    getAllValues o (IniStore.addEntry o s' none none false st).2 s k = getAllValues o st s k := by
  rw [getAllValues_eq (hi.addEntry _ _ _ _), getAllValues_eq hi]
  exact congrArg (keysNamed k) (keysOf_addSection s' none st s)

end IniScarce

namespace IniScarce

/-- Objects that can come about: by changes, loading and `Reset`, each of which may have run out of memory. -/
inductive Reached (o : Options) : Store → Prop
  | start : Reached o {}
  | change {st : Store} (c : Change) (b : Nat) : Reached o st → Reached o (change o c b st).2
  | load {st : Store} (copy : Bool) (s : Bytes) (b : Nat) : Reached o st → Reached o (loadEvery o copy s b st).2.1
  | reset {st : Store} : Reached o st → Reached o { order := st.order }

theorem addAll_inv {o : Options} {copy : Bool} {l : List Found} {b : Nat} {st : Store} (hi : Inv o st) : Inv o (addAll o copy l b st).2 := by
  cases h : (addAll o copy l b st).1 with
  | some b' => rw [addAll_some h]; exact inv_addAll l hi
  | none =>
    obtain ⟨before, f, rest, x, m, _, h4, h5, h6⟩ := addAll_none hi h
    rw [h5]
    have hx := inv_addAll (o := o) before hi
    rcases h6 with rfl | ⟨_, rfl⟩
    · exact Inv.later hx h4
    · exact Inv.later (hx.addEntry _ _ _ _) h4

theorem Reached.inv {o : Options} {st : Store} (h : Reached o st) : Inv o st := by
  induction h with
  | start => exact Inv.empty o
  | @change st c b _ ih =>
    cases hc : (IniScarce.change o c b st).1 with
    | true => rw [change_true hc]; exact ih.change c
    | false =>
      obtain ⟨r, x, n, _, h4, h5, rfl⟩ := change_false ih hc
      rw [h5]; exact Inv.later (Inv.fold ih) h4
  | @load st copy s b _ ih =>
    unfold loadEvery
    simp only
    split
    · exact ih
    · split
      · exact Inv.comment ih _
      · exact addAll_inv (Inv.comment ih _)
  | @reset st _ _ => exact ⟨.nil, by simp, .nil, by simp⟩

end IniScarce

/-- C88. A change that ends with `std::bad_alloc` changes the value of no key, unless it was to replace all values where several are allowed: then those
    of that key may be gone, and of no other. -/
theorem C88_refused (o : Options) {st : Store} (hr : Reached o st) {c : Change} {b : Nat} (hc : (change o c b st).1 = false) (s k : Bytes) :
    (getAllValues o (change o c b st).2 s k).map (·.value) = (getAllValues o st s k).map (·.value)
    ∨ (o.multiKey = true ∧ ∃ s' k' v cm, c = .set s' k' v cm true ∧ SameCI s' s ∧ SameCI k' k ∧ getAllValues o (change o c b st).2 s k = []) := by
  have hi := hr.inv
  obtain ⟨r, x, n, h3, h4, h5, rfl⟩ := change_false hi hc
  have hi0 : Inv o (r.foldr (fun c st => (IniStore.change o c st).2) st) := Inv.fold hi
  have hi' : Inv o (change o c b st).2 := by rw [h5]; exact Inv.later hi0 h4
  have e1 : getAllValues o (change o c b st).2 s k = getAllValues o (r.foldr (fun c st => (IniStore.change o c st).2) st) s k := by
    rw [getAllValues_eq hi', getAllValues_eq hi0, h5]; rfl
  have e2 : ∀ c', r = [c'] → (getAllValues o (change o c b st).2 s k).map (·.value) = c'.values o.multiKey s k ((getAllValues o st s k).map (·.value)) := by
    rintro c' rfl
    rw [e1, getAllValues_eq hi0, getAllValues_eq hi]
    exact values_change o s k hi c'
  cases h3 with
  | nothing => left; rw [e1]; rfl
  | onlySection => left; rw [e2 _ rfl]; rfl
  | onlyDeletion s' k' v cm hm =>
    have e3 := e2 _ rfl
    by_cases hsk : SameCI s' s ∧ SameCI k' k
    · right
      refine ⟨hm, s', k', v, cm, rfl, hsk.1, hsk.2, ?_⟩
      simp only [Change.values, hsk, and_self, if_true] at e3
      exact List.map_eq_nil_iff.mp e3
    · left
      rw [e3]
      simp only [Change.values, hsk, if_false]

/-- C88. That happens: for every object with values for a key, where several are allowed, replacing them can end with `std::bad_alloc` and all of them gone. -/
theorem C88_lost (o : Options) (hm : o.multiKey = true) {st : Store} (hr : Reached o st) (s k v : Bytes) (hv : getAllValues o st s k ≠ []) :
    ∃ b, (change o (.set s k v none true) b st).1 = false ∧ getAllValues o (change o (.set s k v none true) b st).2 s k = [] := by
  have hi := hr.inv
  rw [getAllValues_eq hi] at hv
  cases hf : findSection st s with
  | none => unfold keysOf at hv; rw [hf] at hv; exact absurd rfl hv
  | some e =>
    have hk : keysOf st s = e.keys := by unfold keysOf; rw [hf]; rfl
    rw [hk] at hv
    let b := if (oldest (st.order + 1) (keysNamed k e.keys)).2.isSome then 2 else 0
    have he : addEntry o s (some (k, v)) none true true b st
        = (none, { st with order := st.order + 1, sections := onSection s (fun _ => keysNotNamed k e.keys) st.sections }) := by
      have hc0 : copies false b = some b := by unfold copies request; simp
      have hc1 : copies (oldest (st.order + 1) (keysNamed k e.keys)).2.isSome b = some 0 := by
        unfold copies request
        simp [b]
      have hc2 : copies true 0 = none := by unfold copies request; simp
      unfold addEntry
      simp only [Option.isSome_none, Bool.and_false, hc0, addSection, hf, Option.map_some, Option.getD_some, setKey, hv, if_false, hm, Bool.and_true,
        if_true, hc1, insertKey, hc2]
    have hx : (change o (.set s k v none true) b st).1 = false := by simp only [change, he, Option.isSome_none]
    refine ⟨b, hx, ?_⟩
    obtain ⟨r, x, n, h3, h4, h5, rfl⟩ := change_false hi hx
    have hi' : Inv o (change o (.set s k v none true) b st).2 := by rw [h5]; exact Inv.later (Inv.fold hi) h4
    rw [getAllValues_eq hi']
    have hs : sameName s s = true := sameName_refl s
    simp only [change, he]
    unfold keysOf IniStore.findSection
    simp only
    rw [find_onSection]
    have hf' : st.sections.find? (fun e => sameName e.name s) = some e := hf
    rw [hf']
    simp only [hs, if_true, Option.map_some, Option.getD_some]
    rw [keysNamed_eq_nil]
    exact fun q hq => (mem_keysNotNamed.mp hq).2

/-- C88. Loading data. If it returns, it has done what it does with memory enough; it returns if three requests are granted and twelve for each section header and
    value. If it ends with `std::bad_alloc` the object contains what it contained, or what it contains when the first of the headers and values are
    loaded, perhaps with the next one's section, without the key; every value it then shows is what it shows when the first of them are loaded. -/
theorem C88_load (o : Options) (copy : Bool) (s : Bytes) (b : Nat) {st : Store} (hr : Reached o st) :
    (((loadEvery o copy s b st).1.isSome = true) → (loadEvery o copy s b st).2.1 = IniStore.loadEvery o copy s st)
    ∧ (3 + 12 * (found o copy s st).1.length ≤ b → (loadEvery o copy s b st).1.isSome = true)
    ∧ ((loadEvery o copy s b st).1 = none → (loadEvery o copy s b st).2.1 = st ∨ ∃ before rest, (found o copy s st).1 = before ++ rest
      ∧ let x := IniStore.addAll o before (found o copy s st).2
        (contents o (loadEvery o copy s b st).2.1 = contents o x
          ∨ ∃ f, rest.head? = some f ∧ f.kv.isSome = true ∧ contents o (loadEvery o copy s b st).2.1 = Change.apply o.multiKey (contents o x) (.addSection f.sect none))
        ∧ ∀ s' k', (getAllValues o (loadEvery o copy s b st).2.1 s' k') = getAllValues o x s' k') := by
  have hi := hr.inv
  have hi0 : Inv o (found o copy s st).2 := Inv.comment hi _
  unfold loadEvery
  simp only
  cases h1 : request 1 b with
  | none =>
    refine ⟨fun h => (by cases h), fun h => ?_, fun _ => .inl rfl⟩
    unfold request at h1
    rw [if_pos (by omega)] at h1
    cases h1
  | some b1 =>
    have e1 := request_some h1
    simp only
    cases h2 : commentCopies copy st (findFileComment st (cut (dropMark o s))) b1 with
    | none =>
      refine ⟨fun h => (by cases h), fun h => ?_, fun _ => .inr ⟨[], _, rfl, .inl rfl, fun _ _ => rfl⟩⟩
      obtain ⟨b', h3, _⟩ := copies_enough (yes := copy && st.fileComment.isNone && (findFileComment st (cut (dropMark o s))).1.isSome) (show 2 ≤ b1 by omega)
      unfold commentCopies at h2
      rw [h3] at h2
      cases h2
    | some b2 =>
      simp only
      refine ⟨fun h => ?_, fun h => ?_, fun h => .inr ?_⟩
      · obtain ⟨b3, h3⟩ := Option.isSome_iff_exists.mp h
        exact addAll_some h3
      · unfold commentCopies copies at h2
        have e2 := request_some h2
        have : (if (copy && st.fileComment.isNone && (findFileComment st (cut (dropMark o s))).1.isSome) = true then 2 else 0) ≤ 2 := by split <;> omega
        obtain ⟨b3, h3⟩ := addAll_enough (o := o) (copy := copy) (l := (found o copy s st).1) (b := b2) (st := (found o copy s st).2) (by omega)
        exact Option.isSome_iff_exists.mpr ⟨b3, h3⟩
      · obtain ⟨before, f, rest, x, m, h3, h4, h5, h6⟩ := addAll_none (l := (found o copy s st).1) (st := (found o copy s st).2) hi0 h
        have hx0 : Inv o (IniStore.addAll o before (found o copy s st).2) := inv_addAll before hi0
        have hy : (addAll o copy (findEvery o copy ((findFileComment st (cut (dropMark o s))).2.length + 1) (.named []) none (findFileComment st (cut (dropMark o s))).2) b2
            { st with fileComment := (findFileComment st (cut (dropMark o s))).1 }).2 = { x with order := m } := h5
        refine ⟨before, f :: rest, h3, ?_⟩
        rw [hy]
        rcases h6 with rfl | ⟨h7, rfl⟩
        · exact ⟨.inl (by rw [contents_eq (Inv.later hx0 h4), contents_eq hx0]; rfl), fun _ _ => rfl⟩
        · refine ⟨.inr ⟨f, rfl, h7, ?_⟩, fun s' k' => addSection_values hx0 f.sect s' k'⟩
          rw [contents_eq (Inv.later (hx0.addEntry _ _ _ _) h4), contents_eq hx0]
          exact doc_addSection hx0 f.sect none

namespace IniScarce

theorem loadEvery_some {o : Options} {copy : Bool} {s : Bytes} {b b' : Nat} {st : Store} (h : (loadEvery o copy s b st).1 = some b') :
    (loadEvery o copy s b st).2.1 = IniStore.loadEvery o copy s st := by
  unfold loadEvery at h ⊢
  simp only at h ⊢
  cases h1 : request 1 b with
  | none => rw [h1] at h; cases h
  | some b1 =>
    rw [h1] at h
    simp only at h ⊢
    cases h2 : commentCopies copy st (findFileComment st (cut (dropMark o s))) b1 with
    | none => rw [h2] at h; cases h
    | some b2 => rw [h2] at h; exact addAll_some h

theorem loadEvery_events {o : Options} {copy : Bool} {s : Bytes} {b : Nat} {st : Store} :
    (∀ e ∈ (loadEvery o copy s b st).2.2, (∃ n, e = .new n) ∨ e = .delete) ∧ ((loadEvery o copy s b st).1 = none → .delete ∉ (loadEvery o copy s b st).2.2)
    ∧ ((loadEvery o copy s b st).1.isSome = true → (loadEvery o copy s b st).2.2 = .new ((dropMark o s).length + 1) :: if copy then [.delete] else []) := by
  unfold loadEvery
  simp only
  cases request 1 b with
  | none => simp
  | some b1 =>
    simp only
    cases commentCopies copy st (findFileComment st (cut (dropMark o s))) b1 with
    | none => simp
    | some b2 =>
      simp only
      cases (addAll o copy (findEvery o copy ((findFileComment st (cut (dropMark o s))).2.length + 1) (.named []) none (findFileComment st (cut (dropMark o s))).2) b2
            { st with fileComment := (findFileComment st (cut (dropMark o s))).1 }).1 with
      | none => simp
      | some b3 => cases copy <;> simp

end IniScarce

/-- C88. The block of the converted text. When loading data ends with `std::bad_alloc`, and so much memory was there that the block was made, nobody releases it; otherwise it
    has room for the text and a NUL, and is released if the strings were copied, else kept. -/
theorem C88_block (o : Options) (copy : Bool) (s : Bytes) (b : Nat) (st : Store) :
    ((loadEvery o copy s b st).1 = none → 0 < b → (loadEvery o copy s b st).2.2 = [.new ((dropMark o s).length + 1)])
    ∧ ((loadEvery o copy s b st).1.isSome = true → (loadEvery o copy s b st).2.2 = .new ((dropMark o s).length + 1) :: if copy then [.delete] else []) := by
  refine ⟨fun h hb => ?_, loadEvery_events.2.2⟩
  unfold loadEvery at h ⊢
  simp only [request_enough (show 1 ≤ b by omega)] at h ⊢
  cases h2 : commentCopies copy st (findFileComment st (cut (dropMark o s))) (b - 1) with
  | none => rfl
  | some b2 =>
    rw [h2] at h
    simp only at h ⊢
    rw [h]
    rfl

/-- C88. Loading a file. If it returns, result and object are those of C78; the stream is closed and every block is released but the one that is kept when
    nothing was loaded before. If it ends with `std::bad_alloc` the file was there and not empty; the stream stays open, and nothing that was taken is released:
    neither the buffer for the file nor the block of the converted text. That happens whenever no request is granted. -/
theorem C88_file (o : Options) (copy : Bool) (r : Reading) (b : Nat) (st : Store) :
    (∀ c, (loadFile o copy r b st).1 = some c → c = (IniFile.loadFile o copy r st).1 ∧ (loadFile o copy r b st).2.1 = (IniFile.loadFile o copy r st).2.1
      ∧ ((loadFile o copy r b st).2.2 = [] ∨ (loadFile o copy r b st).2.2 = [.fopen, .fclose] ∨ ∃ n, (loadFile o copy r b st).2.2 = [.fopen, .new n, .delete, .fclose]
        ∨ ∃ n', (loadFile o copy r b st).2.2 = [.fopen, .new n, .new n'] ++ (if copy then [.delete] else []) ++ [.delete, .fclose]))
    ∧ ((loadFile o copy r b st).1 = none → r.opens = true ∧ 0 < r.tell
        ∧ .fopen ∈ (loadFile o copy r b st).2.2 ∧ .fclose ∉ (loadFile o copy r b st).2.2 ∧ .delete ∉ (loadFile o copy r b st).2.2)
    ∧ (∀ content, r.Of content → content ≠ [] → b = 0 → (loadFile o copy r b st).1 = none) := by
  refine ⟨fun c hc => ?_, fun hc => ?_, fun content hr hne hb => ?_⟩
  · unfold loadFile at hc ⊢
    unfold IniFile.loadFile IniFile.loadStream
    split at hc
    · rename_i h1
      cases hc
      simp [h1]
    · rename_i h1
      simp only [h1, if_false]
      split at hc
      · rename_i h2
        cases hc
        refine ⟨?_, ?_, .inr (.inl ?_)⟩ <;> simp [h2]
      · rename_i h2
        simp only [h2, if_false]
        split at hc
        · rename_i h3
          cases hc
          refine ⟨?_, ?_, .inr (.inl ?_)⟩ <;> simp [h3]
        · rename_i h3
          simp only [h3, if_false]
          split at hc
          · rename_i h4
            cases hc
            refine ⟨?_, ?_, .inr (.inl ?_)⟩ <;> simp [h4]
          · rename_i h4
            simp only [h4, if_false]
            cases h5 : request 1 b with
            | none => rw [h5] at hc; cases hc
            | some b1 =>
              rw [h5] at hc
              simp only at hc ⊢
              split at hc
              · rename_i h6
                cases hc
                refine ⟨?_, ?_, .inr (.inr ⟨r.tell.toNat + 1, .inl ?_⟩)⟩ <;> simp [h6]
              · rename_i h6
                simp only [h6, if_false]
                cases h7 : (loadEvery o copy (r.read r.tell.toNat) b1 st).1 with
                | none => rw [h7] at hc; cases hc
                | some b2 =>
                  rw [h7] at hc
                  cases hc
                  refine ⟨by simp, by simpa using loadEvery_some h7, .inr (.inr ⟨r.tell.toNat + 1, .inr ⟨(dropMark o (r.read r.tell.toNat)).length + 1, ?_⟩⟩)⟩
                  simp only [Bool.false_eq_true, if_false]
                  rw [loadEvery_events.2.2 (by rw [h7]; rfl)]
                  cases copy <;> rfl
  · unfold loadFile at hc ⊢
    split at hc
    · cases hc
    · rename_i h1
      simp only [h1, if_false]
      split at hc
      · cases hc
      · rename_i h2
        simp only [h2, if_false]
        split at hc
        · cases hc
        · rename_i h3
          simp only [h3, if_false]
          split at hc
          · cases hc
          · rename_i h4
            simp only [h4, if_false]
            refine ⟨by simpa using h1, by omega, ?_⟩
            cases h5 : request 1 b with
            | none => simp
            | some b1 =>
              rw [h5] at hc
              simp only at hc ⊢
              split at hc
              · cases hc
              · rename_i h6
                simp only [h6, if_false]
                cases h7 : (loadEvery o copy (r.read r.tell.toNat) b1 st).1 with
                | some b2 => rw [h7] at hc; cases hc
                | none =>
                  simp only
                  have h8 := loadEvery_events.2.1 h7
                  have h9 := (loadEvery_events (o := o) (copy := copy) (s := r.read r.tell.toNat) (b := b1) (st := st)).1
                  refine ⟨by simp, fun h => ?_, fun h => ?_⟩
                  · rcases List.mem_append.mp h with h | h
                    · simp at h
                    · rcases h9 _ h with ⟨n, e⟩ | e <;> cases e
                  · rcases List.mem_append.mp h with h | h
                    · simp at h
                    · exact h8 h
  · obtain ⟨h1, h2, h3, h4⟩ := hr
    subst hb
    have hl : 0 < content.length := List.length_pos_iff.mpr hne
    have h5 : ¬ r.tell < 0 := by omega
    have h6 : ¬ r.tell = 0 := by omega
    unfold loadFile
    simp [h1, h2, h5, h6, request]

namespace IniScarce

/-- Two values for a key, and memory for the section only, then a value that replaces them. -/
def sampleScarce : List (Change × Nat) :=
  [(.set b!"a" b!"k" b!"3" none true, 1), (.set b!"b" b!"x" b!"1" none false, 4), (.set b!"a" b!"k" b!"2" none false, 12), (.set b!"A" b!"k" b!"1" none false, 12)]

example : (returned { multiKey := true } sampleScarce).map (·.2) = [false, false, true, true] := by decide +kernel

example : (run { multiKey := true } sampleScarce.tail).sections.map (fun s => (s.name, s.keys.map (·.value))) = [(b!"A", [b!"1", b!"2"]), (b!"b", [])] := by
  decide +kernel

example : getAllValues { multiKey := true } (run { multiKey := true } sampleScarce.tail) b!"a" b!"k" ≠ [] := by decide +kernel

/-- The values are gone. -/
example : (run { multiKey := true } sampleScarce).sections.map (fun s => (s.name, s.keys.map (·.value))) = [(b!"A", []), (b!"b", [])] := by decide +kernel

/-- Without several values per key nothing is lost. -/
example : (run {} [(.set b!"a" b!"k" b!"2" none true, 1), (.set b!"a" b!"k" b!"1" none true, 12)]).sections.map (fun s => s.keys.map (·.value)) = [[b!"1"]] := by
  decide +kernel

/-- A text of which two of three values are loaded. -/
example : (loadEvery {} false b!"[s]\na=1\nb=2\n[t]\nc=3\n" 5 {}).2.1.sections.map (fun s => (s.name, s.keys.map (·.value))) = [(b!"s", [b!"1", b!"2"]), (b!"t", [])]
    ∧ (loadEvery {} false b!"[s]\na=1\nb=2\n[t]\nc=3\n" 5 {}).1 = none := by decide +kernel

/-- The file stays open. -/
example : (loadFile {} false ⟨true, true, 8, fun n => b!"[s]\na=1\n".take n⟩ 2 {}).2.2 = [.fopen, .new 9, .new 9]
    ∧ (loadFile {} false ⟨true, true, 8, fun n => b!"[s]\na=1\n".take n⟩ 9 {}).1 = some .ok := by decide +kernel

end IniScarce

end Licensecc
