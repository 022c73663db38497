import Verif.Lemmas.IniDoc
import Verif.Lemmas.Version
/-!
# C74: what is set in an INI object is what is found in it

The object of Model/IniStore after any history of changes, against the documents of Spec/IniStore.
-/
namespace Licensecc
open Ini hiding getValue getAllKeys getSectionSize setKey load
open IniStore Spec.IniStore

/-- A change through the interface: `SetValue` with and without key and value, `Delete`; true for `SI_INSERTED` and for `Delete` returning true. -/
def IniStore.change (o : Options) : Change → Store → Bool × Store
  | .set s k v c force, st => addEntry o s (some (k, v)) c force st
  | .addSection s c, st => addEntry o s none c false st
  | .delete s k removeEmpty, st => delete s k removeEmpty st

/-- The object after a history of changes, the newest first. -/
def IniStore.run (o : Options) : List Change → Store
  | [] => {}
  | c :: h => (change o c (run o h)).2

/-- What a user finds in an object: `GetAllSections`, `GetAllKeys` for each section and `GetAllValues` for each key, the first two lists sorted by
    `Entry::LoadOrder`. -/
def IniStore.contents (o : Options) (st : Store) : Doc :=
  (sortByOrder Sect.order Sect.name (getAllSections st)).map fun s =>
    ⟨s.name, s.comment, (sortByOrder Key.order Key.name ((getAllKeys st s.name).getD [])).map fun k =>
      ⟨k.name, (getAllValues o st s.name k.name).map fun e => (e.value, e.comment)⟩⟩

namespace IniStore

theorem Inv.change {o : Options} {st : Store} (h : Inv o st) (c : Change) : Inv o (change o c st).2 := by
  cases c with
  | set s k v c force => exact h.addEntry s _ c force
  | addSection s c => exact h.addEntry s none c false
  | delete s k re => exact h.delete s k re

theorem Inv.run (o : Options) (h : List Change) : Inv o (run o h) := by
  induction h with
  | nil => exact Inv.empty o
  | cons c h ih => exact ih.change c

theorem doc_change {o : Options} {st : Store} (h : Inv o st) (c : Change) : doc (change o c st).2 = c.apply o.multiKey (doc st) := by
  cases c with
  | set s k v c force => exact doc_addEntry h s k v c force
  | addSection s c => exact doc_addSection h s c
  | delete s k re => exact doc_delete h s k re

theorem doc_run (o : Options) (h : List Change) : doc (run o h) = docOf o.multiKey h := by
  induction h with
  | nil => simp [run, docOf, doc, sortByOrder]
  | cons c h ih =>
    show doc (IniStore.change o c (run o h)).2 = c.apply o.multiKey (docOf o.multiKey h)
    rw [doc_change (Inv.run o h), ih]

/-- Without several values per key there is at most one value. -/
theorem KeysOk.named_one {o : Options} {n : Nat} {keys : List Key} (h : KeysOk o n keys) (hm : o.multiKey = false) (k : Bytes) :
    (keysNamed k keys).length ≤ 1 := by
  have hs : SortedS Key.name (keysNamed k keys) := (h.strict hm).filter _
  cases hk : keysNamed k keys with
  | nil => simp
  | cons a l =>
    cases l with
    | nil => simp
    | cons b l =>
      rw [hk] at hs
      have hab := (List.pairwise_cons.mp hs).1 b (by simp)
      have ha : sameName a.name k = true := (mem_keysNamed.mp (by rw [hk]; simp : a ∈ keysNamed k keys)).2
      have hb : sameName b.name k = true := (mem_keysNamed.mp (by rw [hk]; simp : b ∈ keysNamed k keys)).2
      rw [← same_congr_right hb] at ha
      rw [less_not_same hab] at ha
      cases ha

theorem getAllValues_eq {o : Options} {st : Store} (h : Inv o st) (s k : Bytes) : getAllValues o st s k = keysNamed k (keysOf st s) := by
  unfold getAllValues keysOf
  cases hf : findSection st s with
  | none => simp [keysNamed]
  | some e =>
    simp only [Option.map_some, Option.getD_some]
    split
    · rfl
    · rename_i hm
      refine List.take_of_length_le ?_
      exact (h.keys e (findSection_same hf).2).named_one (by simpa using hm) k

theorem contents_eq {o : Options} {st : Store} (h : Inv o st) : contents o st = doc st := by
  unfold contents doc
  refine List.map_congr_left fun s hs => ?_
  have hs' := (mem_sortByOrder _ _).mp hs
  have hf := findSection_unique h hs' (sameName_refl s.name)
  unfold docSection docKeys getAllKeys
  rw [hf]
  simp only [Option.map_some, Option.getD_some]
  refine congrArg _ (List.map_congr_left fun k _ => ?_)
  rw [getAllValues_eq h]
  unfold docValues keysOf
  rw [hf]
  rfl

end IniStore

/-- C74. After any history of `SetValue` and `Delete` the object contains exactly the document that the same changes make of an empty document:
    sections and keys in the order in which they came, the values of each key, the comments. -/
theorem C74_contents (o : Options) (h : List Change) : contents o (run o h) = docOf o.multiKey h := by
  rw [contents_eq (Inv.run o h), doc_run]

namespace IniStore

theorem values_replaceFirst {k v k' : Bytes} {keys : List Key} (h2 : keysNamed k keys ≠ []) :
    (keysNamed k' (replaceFirst k v keys)).map (·.value) = if sameName k k' then v :: ((keysNamed k' keys).map (·.value)).tail else (keysNamed k' keys).map (·.value) := by
  induction keys with
  | nil => simp [keysNamed] at h2
  | cons e l ih =>
    rw [replaceFirst]
    by_cases hs : sameName e.name k = true
    · rw [if_pos hs]
      have hc : sameName e.name k' = sameName k k' := sameName_trans hs k'
      unfold keysNamed
      rw [List.filter_cons, List.filter_cons]
      simp only [hc]
      split <;> rfl
    · rw [if_neg hs]
      have hh : keysNamed k (e :: l) = keysNamed k l := by unfold keysNamed; rw [List.filter_cons, if_neg hs]
      rw [hh] at h2
      have ih := ih h2
      unfold keysNamed at ih ⊢
      rw [List.filter_cons, List.filter_cons]
      split
      · rename_i hk
        rw [List.map_cons, List.map_cons, ih]
        have : ¬ sameName k k' = true := by
          intro hkk
          rw [← same_congr_right hkk] at hk
          exact hs hk
        rw [if_neg this, if_neg this]
      · exact ih

theorem values_setKey {o : Options} {keys : List Key} (h : SortedW Key.name keys) (k v : Bytes) (c : Option Bytes) (force : Bool) (m : Nat) (k' : Bytes) :
    (keysNamed k' (setKey o k v c force m keys).2).map (·.value)
      = if sameName k k' then
          (if o.multiKey = true then (if force = true then [v] else (keysNamed k' keys).map (·.value) ++ [v]) else v :: ((keysNamed k' keys).map (·.value)).tail)
        else (keysNamed k' keys).map (·.value) := by
  have hins : ∀ (x : Key) (l : List Key), SortedW Key.name l → x.name = k → x.value = v → (keysNamed k' (insertBy Key.name x l)).map (·.value)
      = if sameName k k' then (keysNamed k' l).map (·.value) ++ [v] else (keysNamed k' l).map (·.value) := by
    rintro x l hl rfl rfl
    split
    · rename_i hk; rw [keysNamed_insertBy_same hl hk]; simp
    · rename_i hk; rw [keysNamed_insertBy_other (by simpa using hk)]
  unfold setKey
  split
  · rename_i hn
    rw [hins _ _ h rfl rfl]
    split
    · rename_i hk
      rw [← keysNamed_congr hk, hn]
      split
      · split <;> rfl
      · rfl
    · rfl
  · rename_i hn
    split
    · rename_i hm
      have hm' : o.multiKey = true ∧ force = true := by simpa using hm
      simp only
      rw [hins _ (keysNotNamed k keys) (h.filter _) rfl rfl, keysNamed_notNamed]
      split
      · rw [if_pos hm'.1, if_pos hm'.2]; rfl
      · rfl
    · rename_i hm
      split
      · rename_i hm2
        have hf : force = false := by
          cases force with
          | false => rfl
          | true => rw [hm2] at hm; exact absurd rfl hm
        rw [hins _ _ h rfl rfl, if_neg (by simp [hf] : ¬ force = true)]
      · rename_i hm2
        rw [values_replaceFirst hn]

theorem keysOf_filter (st : Store) (s s' : Bytes) :
    keysOf { st with sections := st.sections.filter fun e => !sameName e.name s } s' = if sameName s s' then [] else keysOf st s' := by
  unfold keysOf findSection
  simp only
  rw [find_filter_not]
  split <;> rfl

theorem keysOf_onSection (st : Store) (s s' : Bytes) (f : List Key → List Key) (hf : f [] = []) :
    keysOf { st with sections := onSection s f st.sections } s' = if sameName s s' then f (keysOf st s') else keysOf st s' := by
  unfold keysOf findSection
  simp only
  rw [find_onSection]
  cases st.sections.find? (fun e => sameName e.name s') with
  | none => split <;> simp [hf]
  | some e => split <;> rfl

theorem keysOf_none {st : Store} {s : Bytes} (h : findSection st s = none) {s' : Bytes} (hs : sameName s s' = true) : keysOf st s' = [] := by
  unfold keysOf
  rw [← findSection_congr st hs, h]
  rfl

/-- The values seen from one key, whatever the settings were before. -/
theorem values_change (o : Options) {o' : Options} (s k : Bytes) {st : Store} (hi : Inv o' st) (c : Change) :
    (keysNamed k (keysOf (change o c st).2 s)).map (·.value) = c.values o.multiKey s k ((keysNamed k (keysOf st s)).map (·.value)) := by
  cases c with
  | addSection s' c =>
    rw [Change.values]
    show (keysNamed k (keysOf (addSection s' c st).2 s)).map (·.value) = _
    rw [keysOf_addSection]
  | set s' k' v c force =>
    rw [Change.values]
    simp only [change]
    rw [keysOf_addEntry]
    by_cases hs : sameName s' s = true
    · rw [if_pos hs, values_setKey (hi.keysOf s').sorted, keysOf_congr _ hs]
      simp only [sameCI_iff, hs, true_and]
    · rw [if_neg hs, if_neg (fun hh => hs (sameCI_iff.mp hh.1))]
  | delete s' k' re =>
    simp only [change]
    have hgone : ∀ {t : Bytes}, keysNotNamed t (keysOf st s') = [] → sameName s' s = true → sameName t k = false →
        (keysNamed k (keysOf st s)) = [] := by
      intro t ht hs hk
      rw [keysOf_congr _ hs] at ht
      rw [keysNamed_eq_nil]
      intro e he
      have : e ∉ keysNotNamed t (keysOf st s) := by rw [ht]; simp
      rw [mem_keysNotNamed] at this
      have : sameName e.name t = true := by
        cases hh : sameName e.name t with
        | true => rfl
        | false => exact absurd ⟨he, hh⟩ this
      rw [sameName_trans this]; exact hk
    cases k' with
    | none =>
      rw [Change.values]
      simp only [sameCI_iff]
      unfold delete
      cases hf : findSection st s' with
      | none =>
        simp only
        split
        · rename_i hs; rw [keysOf_none hf hs]; rfl
        · rfl
      | some e =>
        simp only
        rw [keysOf_filter]
        split
        · rfl
        · rfl
    | some k' =>
      rw [Change.values]
      simp only [sameCI_iff]
      unfold delete
      cases hf : findSection st s' with
      | none =>
        simp only
        split
        · rename_i hs; rw [keysOf_none hf hs.1]; rfl
        · rfl
      | some e =>
        have hke : keysOf st s' = e.keys := by simp [keysOf, hf]
        simp only
        split
        · rename_i hn
          split
          · rename_i hs
            rw [← hke, keysOf_congr _ hs.1, keysNamed_congr hs.2] at hn
            rw [hn]; rfl
          · rfl
        · split
          · rw [keysOf_onSection _ _ _ _ (by rfl)]
            by_cases hs : sameName s' s = true
            · rw [if_pos hs, keysNamed_notNamed]
              simp only [hs, true_and]
              split
              · rfl
              · rfl
            · rw [if_neg hs, if_neg (fun hh => hs hh.1)]
          · rename_i hre
            have hnil : keysNotNamed k' e.keys = [] := by
              simp only [Bool.or_eq_true, Bool.not_eq_true', decide_eq_true_eq, not_or] at hre
              simpa using hre.2
            rw [keysOf_filter]
            by_cases hs : sameName s' s = true
            · rw [if_pos hs]
              simp only [hs, true_and]
              split
              · rfl
              · rename_i hk
                rw [hgone (by rw [hke]; exact hnil) hs (by simpa using hk)]
                rfl
            · rw [if_neg hs, if_neg (fun hh => hs hh.1)]

/-- The values seen from one key. -/
theorem values_run (o : Options) (s k : Bytes) : ∀ h : List Change,
    (keysNamed k (keysOf (run o h) s)).map (·.value) = valuesOf o.multiKey s k h
  | [] => rfl
  | c :: h => by
    have ih := values_run o s k h
    rw [run, values_change o s k (Inv.run o h), ih]
    have h1 : o.multiKey = false → (valuesOf o.multiKey s k h).tail = [] := by
      intro hm
      have := ((Inv.run o h).keysOf s).named_one hm k
      rw [← ih]
      refine List.eq_nil_of_length_eq_zero ?_
      rw [List.length_tail, List.length_map]
      omega
    cases c with
    | addSection s' c => rfl
    | set s' k' v c force =>
      rw [Change.values, valuesOf]
      split
      · cases hm : o.multiKey with
        | false => rw [hm] at h1; simp [h1]
        | true => cases force <;> simp
      · rfl
    | delete s' k' re => cases k' <;> rfl

end IniStore

/-- C74. `GetAllValues` gives, in this order, the values that were added since the key, or its section, was last deleted or its value replaced. -/
theorem C74_values (o : Options) (h : List Change) (s k : Bytes) :
    (getAllValues o (run o h) s k).map (·.value) = valuesOf o.multiKey s k h := by
  rw [getAllValues_eq (Inv.run o h), values_run]

/-- C74. `GetValue` gives the first of them, and the default if there is none; it reports correctly whether there are more. -/
theorem C74_value (o : Options) (h : List Change) (s k : Bytes) :
    getValue o (run o h) s k = ((valuesOf o.multiKey s k h).head?, decide (1 < (valuesOf o.multiKey s k h).length)) := by
  rw [← values_run o s k h]
  unfold getValue
  cases hf : findSection (run o h) s with
  | none => simp [keysOf, hf, keysNamed]
  | some e =>
    have hk : keysOf (run o h) s = e.keys := by simp [keysOf, hf]
    rw [hk, List.head?_map, List.length_map]
    simp only [Prod.mk.injEq, true_and]
    cases hm : o.multiKey with
    | true => simp
    | false =>
      have := ((Inv.run o h).keys e (findSection_same hf).2).named_one hm k
      simp; omega

/-- The object after a history of changes, the newest first, each with the settings in force (`SetMultiKey` and the others may be called between them). -/
def IniStore.runUnder : List (Options × Change) → Store
  | [] => {}
  | (o, c) :: h => (change o c (runUnder h)).2

namespace IniStore

theorem Inv.runUnder (h : List (Options × Change)) : Inv { multiKey := true } (runUnder h) := by
  induction h with
  | nil => exact Inv.empty _
  | cons a h ih =>
    obtain ⟨o, c⟩ := a
    cases c with
    | set s k v c force => exact Inv.addEntry_of (o' := o) (by simp) ih s _ c force
    | addSection s c => exact Inv.addEntry_of (o' := o) (by simp) ih s none c false
    | delete s k re => exact ih.delete s k re

theorem values_runUnder (s k : Bytes) : ∀ h : List (Options × Change), (keysNamed k (keysOf (runUnder h) s)).map (·.value) = valuesUnder s k h
  | [] => rfl
  | (o, c) :: h => by
    rw [runUnder, values_change o s k (Inv.runUnder h), values_runUnder s k h]
    rfl

end IniStore

/-- C74. The settings may be changed at any time: what was set before is neither lost nor merged. While several values are not allowed, `GetAllValues` and `GetValue`
    give the first one only, and `SetValue` replaces the first one only. -/
theorem C74_settings (h : List (Options × Change)) (o : Options) (s k : Bytes) :
    (getAllValues o (runUnder h) s k).map (·.value) = (if o.multiKey = true then valuesUnder s k h else (valuesUnder s k h).take 1)
    ∧ getValue o (runUnder h) s k = ((valuesUnder s k h).head?, o.multiKey && decide (1 < (valuesUnder s k h).length)) := by
  rw [← values_runUnder s k h]
  unfold getValue getAllValues
  cases hf : findSection (runUnder h) s with
  | none => simp [keysOf, hf, keysNamed]
  | some e =>
    have hk : keysOf (runUnder h) s = e.keys := by simp [keysOf, hf]
    rw [hk, List.head?_map, List.length_map]
    refine ⟨?_, rfl⟩
    simp only
    split
    · rfl
    · rw [List.map_take]

/-- C74. And with settings that never change this is the history of `C74_contents`. -/
theorem C74_settings_fixed (o : Options) (h : List Change) : runUnder (h.map fun c => (o, c)) = run o h := by
  induction h with
  | nil => rfl
  | cons c h ih => rw [List.map_cons, runUnder, ih, run]

/-- finding: two values while several are allowed; then not, and the key is set and read: set replaces one of the two, the other one comes back when several are allowed again -/
example : let h : List (Options × Change) := [({}, .set b!"s" b!"k" b!"3" none true), ({ multiKey := true }, .set b!"s" b!"k" b!"2" none false), ({ multiKey := true }, .set b!"S" b!"K" b!"1" none false)]
    (getValue {} (runUnder h) b!"s" b!"k" = (some b!"3", false)) ∧ (getAllValues { multiKey := true } (runUnder h) b!"s" b!"k").map (·.value) = [b!"3", b!"2"]
    ∧ getSectionSize {} (runUnder h) b!"s" = 2 ∧ getSectionSize { multiKey := true } (runUnder h) b!"s" = 1 := by decide +kernel

/-- C74. The last value set is the value found, under any spelling of the names: for one value per key, and when replacing is asked for. -/
theorem C74_set_get (o : Options) (h : List Change) {s k s' k' v : Bytes} {c : Option Bytes} {force : Bool} (hs : Spec.SameCI s s') (hk : Spec.SameCI k k')
    (hf : o.multiKey = false ∨ force = true) : getValue o (run o (.set s k v c force :: h)) s' k' = (some v, false) := by
  rw [C74_value, valuesOf, if_pos ⟨hs, hk⟩, if_neg (by rintro ⟨h1, h2⟩; rcases hf with hf | hf <;> simp_all)]
  rfl

/-- C74. Setting a key changes no other key. -/
theorem C74_set_other (o : Options) (h : List Change) {s k s' k' v : Bytes} {c : Option Bytes} {force : Bool} (hs : ¬ (Spec.SameCI s s' ∧ Spec.SameCI k k')) :
    getValue o (run o (.set s k v c force :: h)) s' k' = getValue o (run o h) s' k' := by
  rw [C74_value, C74_value, valuesOf, if_neg hs]

/-- C74. What is deleted is not found any more. -/
theorem C74_delete_get (o : Options) (h : List Change) {s s' k : Bytes} {k' : Option Bytes} {re : Bool} (hs : Spec.SameCI s s')
    (hk : ∀ x, k' = some x → Spec.SameCI x k) : getValue o (run o (.delete s k' re :: h)) s' k = (none, false) := by
  rw [C74_value]
  cases k' with
  | none => rw [valuesOf, if_pos hs]; rfl
  | some x => rw [valuesOf, if_pos ⟨hs, hk x rfl⟩]; rfl

/-- C74. `GetAllSections` lists every section once, sorted by name; so does `GetAllKeys` with the keys of a section. -/
theorem C74_sorted (o : Options) (h : List Change) :
    ((getAllSections (run o h)).Pairwise fun a b => IniMem.less a.name b.name = true)
    ∧ ∀ s l, getAllKeys (run o h) s = some l → l.Pairwise fun a b => IniMem.less a.name b.name = true := by
  have hi := Inv.run o h
  refine ⟨hi.sorted, ?_⟩
  intro s l hl
  unfold getAllKeys at hl
  cases hf : findSection (run o h) s with
  | none => rw [hf] at hl; cases hl
  | some e =>
    rw [hf] at hl
    simp only [Option.map_some, Option.some.injEq] at hl
    subst hl
    exact (hi.keys e (findSection_same hf).2).firstKeys_strict

namespace IniStore
theorem firstKeys_strict_eq : ∀ {l : List Key} {last : Option Bytes}, SortedS Key.name l → (∀ n, last = some n → ∀ e ∈ l, IniMem.less n e.name = true) →
    firstKeys last l = l
  | [], _, _, _ => rfl
  | e :: l, last, h, hl => by
    obtain ⟨h1, h2⟩ := List.pairwise_cons.mp h
    rw [firstKeys, if_pos, firstKeys_strict_eq h2 (by rintro n ⟨⟩ y hy; exact h1 y hy)]
    cases last with
    | none => rfl
    | some n => simpa using hl n rfl e (by simp)
end IniStore

/-- C74. `GetSectionSize` is -1 if there is no such section and otherwise the number of different keys. -/
theorem C74_size (o : Options) (h : List Change) (s : Bytes) :
    getSectionSize o (run o h) s = match Doc.section? (docOf o.multiKey h) s with
      | none => -1
      | some e => (e.keys.length : Int) := by
  have hi := Inv.run o h
  rw [← doc_run, doc_section? hi]
  unfold getSectionSize
  cases hf : findSection (run o h) s with
  | none => rfl
  | some e =>
    have hk := hi.keys e (findSection_same hf).2
    have hlen : (docSection e).keys.length = (firstKeys none e.keys).length := by
      unfold docSection docKeys
      simp only
      rw [List.length_map, (sortByOrder_perm _ _ _).length_eq]
    simp only [Option.map_some, hlen]
    split
    · rename_i hm
      rcases Bool.or_eq_true _ _ |>.mp hm with hm | hm
      · rw [firstKeys_strict_eq (hk.strict (by simpa using hm)) (by simp)]
      · have : e.keys = [] := by simpa using hm
        rw [this]; rfl
    · rfl

/-- C74. `SetValue` says "inserted" exactly if the section or the key is new, or if several values per key are allowed; without a key exactly if the section is
    new. -/
theorem C74_set_result (o : Options) (h : List Change) (s k v : Bytes) (c : Option Bytes) (force : Bool) :
    ((change o (.set s k v c force) (run o h)).1 = true ↔ o.multiKey = true ∨ valuesOf o.multiKey s k h = [])
    ∧ ((change o (.addSection s c) (run o h)).1 = true ↔ Doc.section? (docOf o.multiKey h) s = none) := by
  have hi := Inv.run o h
  refine ⟨?_, ?_⟩
  · rw [← values_run]
    simp only [change, addEntry, Option.isNone_some, Bool.false_eq_true, if_false]
    have hk : ((findSection (addSection s none (run o h)).2 s).map (·.keys)).getD [] = keysOf (run o h) s := keysOf_addSection s none _ s
    rw [hk, addSection_fst]
    unfold setKey
    rw [List.map_eq_nil_iff]
    cases hf : findSection (run o h) s with
    | none =>
      have : keysOf (run o h) s = [] := by simp [keysOf, hf]
      rw [this]
      simp [keysNamed]
    | some e =>
      simp only [Option.isNone_some, Bool.false_or]
      split
      · rename_i hn; simp [hn]
      · rename_i hn
        split
        · rename_i hm
          simp only [Bool.and_eq_true] at hm
          simp [hm.1]
        · split
          · rename_i hm; simp [hm]
          · rename_i hm; simp [hm, hn]
  · rw [← doc_run, doc_section? hi]
    simp only [change, addEntry, addSection_fst, Option.map_eq_none_iff, Option.isNone_iff_eq_none]

/-- C74. `Delete` says true exactly if there was something to delete. -/
theorem C74_delete_result (o : Options) (h : List Change) (s k : Bytes) (re : Bool) :
    ((change o (.delete s none re) (run o h)).1 = true ↔ Doc.section? (docOf o.multiKey h) s ≠ none)
    ∧ ((change o (.delete s (some k) re) (run o h)).1 = true ↔ valuesOf o.multiKey s k h ≠ []) := by
  have hi := Inv.run o h
  refine ⟨?_, ?_⟩
  · rw [← doc_run, doc_section? hi]
    simp only [change, delete]
    cases findSection (run o h) s <;> simp
  · rw [← values_run]
    simp only [change, delete]
    cases hf : findSection (run o h) s with
    | none => simp [keysOf, hf, keysNamed]
    | some e =>
      have hke : keysOf (run o h) s = e.keys := by simp [keysOf, hf]
      rw [hke]
      simp only [ne_eq, List.map_eq_nil_iff]
      split
      · rename_i hn; simp [hn]
      · rename_i hn; split <;> simp [hn]


/-! ## Numbers and truth values -/

namespace IniStore

theorem digits_append (base : Nat) (s t : Bytes) (hs : ∀ c ∈ s, (digit base c).isSome = true) : ∀ v, digits base (s ++ t) v = digits base t (digits base s v) := by
  induction s with
  | nil => intro v; rfl
  | cons c s ih =>
    intro v
    obtain ⟨n, hn⟩ := Option.isSome_iff_exists.mp (hs c (by simp))
    rw [List.cons_append, digits, digits, hn]
    exact ih (fun c hc => hs c (by simp [hc])) _

/-- The digit of a number below the base. -/
theorem digit_ofNat (base : Nat) (hb : base = 10 ∨ base = 16) (n : Nat) (hn : n < base) :
    digit base (UInt8.ofNat (if n < 10 then 48 + n else 87 + n)) = some n := by
  have h10 : ∀ n < 10, digit 10 (UInt8.ofNat (if n < 10 then 48 + n else 87 + n)) = some n := by decide
  have h16 : ∀ n < 16, digit 16 (UInt8.ofNat (if n < 10 then 48 + n else 87 + n)) = some n := by decide
  rcases hb with rfl | rfl
  · exact h10 n hn
  · exact h16 n hn

theorem digits_revDigits (base : Nat) (hb : base = 10 ∨ base = 16) : ∀ (fuel n : Nat), n < base ^ fuel → 0 < fuel →
    (∀ c ∈ (revDigits base fuel n).reverse, (digit base c).isSome = true) ∧ digits base (revDigits base fuel n).reverse 0 = n
      ∧ (revDigits base fuel n).reverse ≠ [] ∧ (revDigits base fuel n).reverse.length ≤ fuel
  | 0, _, _, h => by omega
  | fuel + 1, n, hn, _ => by
    have hb0 : 0 < base := by rcases hb with rfl | rfl <;> decide
    have hd := digit_ofNat base hb (n % base) (Nat.mod_lt n hb0)
    rw [revDigits]
    split
    · rename_i hz
      have hlt : n % base = n := Nat.mod_eq_of_lt (by
        rcases Nat.lt_or_ge n base with h | h
        · exact h
        · have := Nat.div_pos h hb0; omega)
      rw [List.reverse_singleton]
      refine ⟨?_, ?_, by simp, by simp⟩
      · intro c hc
        rw [List.mem_singleton.mp hc, hd]; rfl
      · simp only [digits, hd]; omega
    · rename_i hz
      have hf : 0 < fuel := by
        rcases Nat.eq_zero_or_pos fuel with h | h
        · subst h
          rw [Nat.zero_add, Nat.pow_one] at hn
          exact absurd (Nat.div_eq_of_lt hn) hz
        · exact h
      have hlt : n / base < base ^ fuel := by
        rw [Nat.div_lt_iff_lt_mul hb0]
        rw [Nat.pow_succ] at hn; exact hn
      obtain ⟨h1, h2, h3, h4⟩ := digits_revDigits base hb fuel (n / base) hlt hf
      rw [List.reverse_cons]
      refine ⟨?_, ?_, by simp, ?_⟩
      · intro c hc
        rcases List.mem_append.mp hc with hc | hc
        · exact h1 c hc
        · rw [List.mem_singleton.mp hc, hd]; rfl
      · rw [digits_append base _ _ h1, h2]
        simp only [digits, hd]
        exact Nat.div_add_mod' n base
      · rw [List.length_append]; simp; simpa using h4

theorem strtol_digits {base : Nat} (hb : base = 10 ∨ base = 16) {w : Bytes} (hw : ∀ c ∈ w, (digit base c).isSome = true) (hne : w ≠ []) (neg : Bool) (s0 : Bytes) :
    strtolTail base neg w s0 = (max (-(2 : Int) ^ 63) (min ((2 : Int) ^ 63 - 1) (if neg then -(digits base w 0 : Int) else digits base w 0)), []) := by
  have hstrip : stripHex base w = w := by
    unfold stripHex
    split
    · rename_i x h r
      rw [if_neg]
      intro hc
      simp only [Bool.and_eq_true, Bool.or_eq_true, beq_iff_eq] at hc
      have hx := hw x (by simp)
      rcases hb with rfl | rfl <;> rcases hc.1.2 with rfl | rfl <;> revert hx <;> decide
    · rfl
  have hall : w.takeWhile (fun c => (digit base c).isSome) = w := by
    have := List.takeWhile_append_dropWhile (p := fun c => (digit base c).isSome) (l := w)
    rw [(dropWhile_nil w).mpr hw, List.append_nil] at this
    exact this
  unfold strtolTail
  simp only [hstrip, hall]
  rw [if_neg hne, (dropWhile_nil w).mpr hw]

theorem digit_start {base : Nat} (hb : base = 10 ∨ base = 16) {c : UInt8} (h : (digit base c).isSome = true) :
    isSpace c = false ∧ c ≠ 45 ∧ c ≠ 43 ∧ c ≠ 120 ∧ c ≠ 88 := by
  have hc : ∀ c : UInt8, (digit 10 c).isSome = true ∨ (digit 16 c).isSome = true → isSpace c = false ∧ c ≠ 45 ∧ c ≠ 43 ∧ c ≠ 120 ∧ c ≠ 88 := by
    exact forall_uint8 (by decide +kernel)
  rcases hb with rfl | rfl
  · exact hc c (.inl h)
  · exact hc c (.inr h)

theorem strtol_plain {base : Nat} (hb : base = 10 ∨ base = 16) {w : Bytes} (hw : ∀ c ∈ w, (digit base c).isSome = true) (hne : w ≠ []) :
    strtol base w = (max (-(2 : Int) ^ 63) (min ((2 : Int) ^ 63 - 1) (digits base w 0 : Int)), []) := by
  cases w with
  | nil => exact absurd rfl hne
  | cons c t =>
    obtain ⟨h1, h2, h3, -⟩ := digit_start hb (hw c (by simp))
    rw [strtol_other base (c :: t) t c (by rw [List.dropWhile_cons, h1]; rfl) h2 h3, strtol_digits hb hw hne]
    rfl

/-- The text of a number, read back. -/
theorem toLong_longText (n dflt : Int) (hn : -(2 : Int) ^ 63 ≤ n ∧ n < 2 ^ 63) :
    toLong (some (longText false n)) dflt = n := by
  have hlt : n.natAbs < 10 ^ 20 := by omega
  obtain ⟨h1, h2, h3, h4⟩ := digits_revDigits 10 (.inl rfl) 20 n.natAbs hlt (by decide)
  unfold longText
  simp only [Bool.false_eq_true, if_false]
  revert h1 h2 h3 h4
  generalize (revDigits 10 20 n.natAbs).reverse = w
  intro h1 h2 h3 h4
  split
  · rename_i hneg
    have hs : strtol 10 (45 :: w) = (n, []) := by
      rw [strtol_minus 10 (45 :: w) w (by rfl), strtol_digits (.inl rfl) h1 h3, h2]
      refine Prod.ext ?_ rfl
      simp only [if_true]
      omega
    show toLong (some (45 :: w)) dflt = n
    simp only [toLong]
    rw [if_neg (by simp; omega), hs]
    rfl
  · rename_i hpos
    have hs : strtol 10 w = (n, []) := by
      rw [strtol_plain (.inl rfl) h1 h3, h2]
      refine Prod.ext ?_ rfl
      simp only
      omega
    cases w with
    | nil => exact absurd rfl h3
    | cons c t =>
      have hlen : ¬ (c :: t).length + 1 > 64 := by omega
      have hx : ∀ x r, c :: t = 48 :: x :: r → (x == 120 || x == 88) = false := by
        rintro x r he
        have := digit_start (.inl rfl) (h1 x (by rw [he]; simp))
        simp [this.2.2.2.1, this.2.2.2.2]
      unfold toLong
      split
      · rename_i h; cases h
      · rename_i h; cases h
      · rename_i s h
        cases h
        rw [if_neg hlen]
        split
        · rename_i x r he
          simp only [hx x r he, Bool.false_eq_true, if_false, hs, if_true]
        · simp only [hs, if_true]

theorem toLong_longText_hex (n dflt : Int) (hn : -(2 : Int) ^ 63 ≤ n ∧ n < 2 ^ 63) :
    toLong (some (longText true n)) dflt = if 0 ≤ n then n else 2 ^ 63 - 1 := by
  have hlt : (n % 2 ^ 64).toNat < 16 ^ 16 := by omega
  obtain ⟨h1, h2, h3, h4⟩ := digits_revDigits 16 (.inr rfl) 16 (n % 2 ^ 64).toNat hlt (by decide)
  unfold longText
  simp only [if_true]
  revert h1 h2 h3 h4
  generalize (revDigits 16 16 (n % 2 ^ 64).toNat).reverse = w
  intro h1 h2 h3 h4
  show toLong (some (48 :: 120 :: w)) dflt = _
  simp only [toLong]
  rw [if_neg (by simp; omega), if_pos (by decide), if_neg h3, strtol_plain (.inr rfl) h1 h3, h2]
  simp only [if_true]
  split <;> omega

end IniStore

/-- C74. A number set with `SetLongValue` is the number `GetLongValue` finds, for every number of 64 bits; in hexadecimal only if it is not negative, a negative
    number is found as the largest one. -/
theorem C74_long (o : Options) (h : List Change) (s k : Bytes) (n dflt : Int) (c : Option Bytes) (hex : Bool)
    (hn : -(2 : Int) ^ 63 ≤ n ∧ n < 2 ^ 63) :
    getLongValue o (setLongValue o s k n c hex true (run o h)).2 s k dflt = if hex = true ∧ n < 0 then 2 ^ 63 - 1 else n := by
  have hv : getValue o (setLongValue o s k n c hex true (run o h)).2 s k = (some (longText hex n), false) :=
    C74_set_get o h (v := longText hex n) (c := c) (sameCI_iff.mpr (sameName_refl s)) (sameCI_iff.mpr (sameName_refl k)) (.inr rfl)
  unfold getLongValue
  rw [hv]
  cases hex with
  | true =>
    rw [toLong_longText_hex n dflt hn]
    simp only [true_and]
    split <;> split <;> omega
  | false => rw [toLong_longText n dflt hn, if_neg (by simp)]

/-- C74. A truth value set with `SetBoolValue` is the one `GetBoolValue` finds. -/
theorem C74_bool (o : Options) (h : List Change) (s k : Bytes) (b dflt : Bool) (c : Option Bytes) :
    getBoolValue o (setBoolValue o s k b c true (run o h)).2 s k dflt = b := by
  have hv : getValue o (setBoolValue o s k b c true (run o h)).2 s k = (some (if b then b!"true" else b!"false"), false) :=
    C74_set_get o h (v := if b then b!"true" else b!"false") (c := c) (sameCI_iff.mpr (sameName_refl s)) (sameCI_iff.mpr (sameName_refl k)) (.inr rfl)
  unfold getBoolValue
  rw [hv]
  cases b <;> rfl

/-! ## Examples -/

/-- Two sections, keys set, added and deleted, in the order in which they came; newest change first. -/
example : contents { multiKey := true } (run { multiKey := true }
    [.delete b!"X" (some b!"gone") true, .set b!"B" b!"k" b!"3" none false, .set b!"b" b!"K" b!"1" (some b!";c") false, .set b!"x" b!"GONE" b!"0" none false,
      .addSection b!"a" (some b!"#s")])
    = [⟨b!"a", some b!"#s", []⟩, ⟨b!"b", none, [⟨b!"K", [(b!"1", some b!";c"), (b!"3", none)]⟩]⟩] := by decide +kernel

example : getLongValue {} (setLongValue {} b!"s" b!"k" (-9223372036854775808) none false true {}).2 b!"S" b!"K" 0 = -9223372036854775808 := by decide +kernel

end Licensecc
