import Verif.Lemmas.IniSave
/-!
# The document of a saved and loaded object
-/
namespace Licensecc.IniStore
open Ini hiding getValue getAllKeys getSectionSize setKey load findSection addSection
open IniMem (less)
open Spec Spec.IniStore

/-! ## Documents made of what is found -/

/-- What is found, as a change. -/
def Found.change (f : Found) : Change :=
  match f.kv with
  | none => .addSection f.sect f.comment
  | some (k, v) => .set f.sect k v f.comment false

theorem inv_addAll {o : Options} : ∀ (l : List Found) {st : Store}, Inv o st → Inv o (addAll o l st)
  | [], _, h => h
  | f :: l, _, h => inv_addAll l (h.addEntry f.sect f.kv f.comment false)

theorem doc_addAll {o : Options} : ∀ (l : List Found) {st : Store}, Inv o st →
    doc (addAll o l st) = l.foldl (fun d f => f.change.apply o.multiKey d) (doc st)
  | [], _, _ => rfl
  | f :: l, st, h => by
    have h1 := doc_addAll l (h.addEntry f.sect f.kv f.comment false)
    have h2 : doc (addEntry o f.sect f.kv f.comment false st).2 = f.change.apply o.multiKey (doc st) := by
      unfold Found.change
      cases hk : f.kv with
      | none => exact doc_addSection h f.sect f.comment
      | some kv => exact doc_addEntry h f.sect kv.1 kv.2 f.comment false
    rw [List.foldl_cons, ← h2]
    exact h1

theorem addSection_fileComment (s : Bytes) (c : Option Bytes) (st : Store) : (addSection s c st).2.fileComment = st.fileComment := by
  unfold addSection; split <;> rfl

theorem addEntry_fileComment (o : Options) (s : Bytes) (kv : Option (Bytes × Bytes)) (c : Option Bytes) (force : Bool) (st : Store) :
    (addEntry o s kv c force st).2.fileComment = st.fileComment := by
  unfold addEntry
  cases kv with
  | none => exact addSection_fileComment s c st
  | some kv => exact addSection_fileComment s none st

theorem addAll_fileComment (o : Options) : ∀ (l : List Found) (st : Store), (addAll o l st).fileComment = st.fileComment
  | [], _ => rfl
  | f :: l, st => (addAll_fileComment o l _).trans (addEntry_fileComment o f.sect f.kv f.comment false st)

/-- What holds of the document of every object. -/
structure DocWF (multi : Bool) (d : Doc) : Prop where
  names : NamesDistinct d
  keys : ∀ s ∈ d, s.keys.Pairwise fun a b => ¬ SameCI a.name b.name
  some : ∀ s ∈ d, ∀ k ∈ s.keys, k.values ≠ []
  one : multi = false → ∀ s ∈ d, ∀ k ∈ s.keys, k.values.length = 1

theorem sameCI_refl (a : Bytes) : SameCI a a := sameCI_iff.mpr (sameName_refl a)
theorem sameCI_symm {a b : Bytes} (h : SameCI a b) : SameCI b a := sameCI_iff.mpr (same_symm (sameCI_iff.mp h))

open Classical in
/-- Setting a key of the last section. -/
theorem set_last {multi : Bool} {d0 : Doc} {s : DocSection} (h : ∀ e ∈ d0, ¬ SameCI e.name s.name) (k v : Bytes) (c : Option Bytes) (force : Bool) :
    (Change.set s.name k v c force).apply multi (d0 ++ [s]) = d0 ++ [{ s with keys := withKey multi k v c force s.keys }] := by
  unfold Change.apply
  simp only
  have hw : Spec.IniStore.withSection s.name none (d0 ++ [s]) = d0 ++ [s] := by
    unfold Spec.IniStore.withSection
    rw [if_pos ⟨s, by simp, sameCI_refl _⟩]
  rw [hw, List.map_append, List.map_singleton, if_pos (sameCI_refl _)]
  refine congrArg (· ++ _) ?_
  conv => rhs; rw [← List.map_id d0]
  refine List.map_congr_left fun e he => ?_
  rw [if_neg (h e he)]
  rfl

open Classical in
/-- The values of a key that was just created. -/
theorem withKey_more {k : Bytes} {ks : List DocKey} (h : ∀ e ∈ ks, ¬ SameCI e.name k) (vs : List (Bytes × Option Bytes)) (v : Bytes) (c : Option Bytes) :
    withKey true k v c false (ks ++ [⟨k, vs⟩]) = ks ++ [⟨k, vs ++ [(v, c)]⟩] := by
  unfold withKey
  rw [if_pos ⟨⟨k, vs⟩, by simp, sameCI_refl _⟩, List.map_append, List.map_singleton, if_pos (sameCI_refl _)]
  simp only [if_true, Bool.false_eq_true, if_false]
  refine congrArg (· ++ _) ?_
  conv => rhs; rw [← List.map_id ks]
  refine List.map_congr_left fun e he => ?_
  rw [if_neg (h e he)]
  rfl

open Classical in
theorem withKey_new {multi : Bool} {k : Bytes} {ks : List DocKey} (h : ∀ e ∈ ks, ¬ SameCI e.name k) (v : Bytes) (c : Option Bytes) (force : Bool) :
    withKey multi k v c force ks = ks ++ [⟨k, [(v, c)]⟩] := by
  unfold withKey
  rw [if_neg]
  rintro ⟨e, he, hs⟩
  exact h e he hs

/-- The further values of a key. -/
theorem fold_more {d0 : Doc} {n : Bytes} {c : Option Bytes} (h : ∀ e ∈ d0, ¬ SameCI e.name n) {k : Bytes} {ks : List DocKey} (hk : ∀ e ∈ ks, ¬ SameCI e.name k) :
    ∀ (vs vs0 : List (Bytes × Option Bytes)),
    (vs.map fun v => (⟨n, some (k, v.1), v.2⟩ : Found)).foldl (fun d f => f.change.apply true d) (d0 ++ [⟨n, c, ks ++ [⟨k, vs0⟩]⟩])
      = d0 ++ [⟨n, c, ks ++ [⟨k, vs0 ++ vs⟩]⟩]
  | [], vs0 => by simp
  | v :: vs, vs0 => by
    rw [List.map_cons, List.foldl_cons]
    have h1 : (Found.change ⟨n, some (k, v.1), v.2⟩).apply true (d0 ++ [⟨n, c, ks ++ [⟨k, vs0⟩]⟩]) = d0 ++ [⟨n, c, ks ++ [⟨k, vs0 ++ [v]⟩]⟩] := by
      have := set_last (multi := true) (s := ⟨n, c, ks ++ [⟨k, vs0⟩]⟩) h k v.1 v.2 false
      rw [withKey_more hk] at this
      exact this
    rw [h1, fold_more h hk vs]
    simp

/-- The values of a new key. -/
theorem fold_values {multi : Bool} {d0 : Doc} {n : Bytes} {c : Option Bytes} (h : ∀ e ∈ d0, ¬ SameCI e.name n) {ks : List DocKey} {k : DocKey}
    (hk : ∀ e ∈ ks, ¬ SameCI e.name k.name) (hs : k.values ≠ []) (ho : multi = false → k.values.length = 1) :
    (k.values.map fun v => (⟨n, some (k.name, v.1), v.2⟩ : Found)).foldl (fun d f => f.change.apply multi d) (d0 ++ [⟨n, c, ks⟩])
      = d0 ++ [⟨n, c, ks ++ [k]⟩] := by
  obtain ⟨kn, vals⟩ := k
  simp only at hk hs ho
  cases vals with
  | nil => exact absurd rfl hs
  | cons v vs =>
    have h1 : (Found.change ⟨n, some (kn, v.1), v.2⟩).apply multi (d0 ++ [⟨n, c, ks⟩]) = d0 ++ [⟨n, c, ks ++ [⟨kn, [v]⟩]⟩] := by
      have := set_last (multi := multi) (s := ⟨n, c, ks⟩) h kn v.1 v.2 false
      rw [withKey_new hk] at this
      exact this
    rw [List.map_cons, List.foldl_cons, h1]
    cases multi with
    | true => rw [fold_more h hk]; rfl
    | false =>
      have := ho rfl
      have hv : vs = [] := List.eq_nil_of_length_eq_zero (by simpa using this)
      subst hv
      rfl

theorem fold_keys {multi : Bool} {d0 : Doc} {n : Bytes} {c : Option Bytes} (h : ∀ e ∈ d0, ¬ SameCI e.name n) : ∀ {ks ks0 : List DocKey},
    ((ks0 ++ ks).Pairwise fun a b => ¬ SameCI a.name b.name) → (∀ k ∈ ks, k.values ≠ []) → (multi = false → ∀ k ∈ ks, k.values.length = 1) →
    (ks.flatMap fun k => k.values.map fun v => (⟨n, some (k.name, v.1), v.2⟩ : Found)).foldl (fun d f => f.change.apply multi d) (d0 ++ [⟨n, c, ks0⟩])
      = d0 ++ [⟨n, c, ks0 ++ ks⟩]
  | [], ks0, _, _, _ => by simp
  | k :: ks, ks0, hp, hs, ho => by
    have hk : ∀ e ∈ ks0, ¬ SameCI e.name k.name := by
      intro e he
      exact (List.pairwise_append.mp hp).2.2 e he k (by simp)
    rw [List.flatMap_cons, List.foldl_append, fold_values h hk (hs k (by simp)) (fun hm => ho hm k (by simp)),
      fold_keys h (by rw [List.append_assoc]; exact hp) (fun k hk => hs k (by simp [hk])) (fun hm k hk => ho hm k (by simp [hk]))]
    simp

open Classical in
theorem addSection_new {multi : Bool} {d0 : Doc} {n : Bytes} (h : ∀ e ∈ d0, ¬ SameCI e.name n) (c : Option Bytes) :
    (Change.addSection n c).apply multi d0 = d0 ++ [⟨n, c, []⟩] := by
  show Spec.IniStore.withSection n c d0 = _
  unfold Spec.IniStore.withSection
  rw [if_neg]
  rintro ⟨e, he, hs⟩
  exact h e he hs

open Classical in
/-- A key of a section that does not exist. -/
theorem set_new {multi : Bool} {d0 : Doc} {n : Bytes} (h : ∀ e ∈ d0, ¬ SameCI e.name n) (k v : Bytes) (c : Option Bytes) (force : Bool) :
    (Change.set n k v c force).apply multi d0 = (Change.set n k v c force).apply multi (d0 ++ [⟨n, none, []⟩]) := by
  have h1 : Spec.IniStore.withSection n none d0 = _ := addSection_new (multi := multi) h none
  unfold Change.apply
  simp only
  rw [h1]
  have h2 : Spec.IniStore.withSection n none (d0 ++ [⟨n, none, []⟩]) = d0 ++ [⟨n, none, []⟩] := by
    unfold Spec.IniStore.withSection
    rw [if_pos ⟨⟨n, none, []⟩, by simp, sameCI_refl _⟩]
  rw [h2]

theorem fold_section {multi : Bool} {d0 : Doc} {s : DocSection} (h : ∀ e ∈ d0, ¬ SameCI e.name s.name) (hk : s.keys.Pairwise fun a b => ¬ SameCI a.name b.name)
    (hs : ∀ k ∈ s.keys, k.values ≠ []) (ho : multi = false → ∀ k ∈ s.keys, k.values.length = 1) (hn : s.name = [] → s.comment = none ∧ s.keys ≠ []) :
    (sectionFound s).foldl (fun d f => f.change.apply multi d) d0 = d0 ++ [s] := by
  have hkeys := fold_keys (multi := multi) (c := s.comment) h (ks0 := []) (ks := s.keys) hk hs ho
  unfold sectionFound
  by_cases hne : s.name = []
  · obtain ⟨hc, hkk⟩ := hn hne
    rw [if_pos hne, List.nil_append]
    rw [hc, List.nil_append] at hkeys
    obtain ⟨k, ks, hks⟩ := List.exists_cons_of_ne_nil hkk
    have hv := hs k (by rw [hks]; simp)
    obtain ⟨v, vs, hvs⟩ := List.exists_cons_of_ne_nil hv
    have e : ∃ rest, (s.keys.flatMap fun k => k.values.map fun v => (⟨s.name, some (k.name, v.1), v.2⟩ : Found)) = ⟨s.name, some (k.name, v.1), v.2⟩ :: rest := by
      rw [hks, List.flatMap_cons, hvs, List.map_cons]
      exact ⟨_, rfl⟩
    obtain ⟨rest, e⟩ := e
    rw [e] at hkeys ⊢
    rw [List.foldl_cons] at hkeys ⊢
    have : (Found.change ⟨s.name, some (k.name, v.1), v.2⟩).apply multi d0 = (Found.change ⟨s.name, some (k.name, v.1), v.2⟩).apply multi (d0 ++ [⟨s.name, none, []⟩]) :=
      set_new h _ _ _ _
    rw [this, hkeys]
    obtain ⟨sn, sc, sk⟩ := s
    simp only at hc
    rw [hc]
  · rw [if_neg hne, List.singleton_append, List.foldl_cons]
    have : (Found.change ⟨s.name, none, s.comment⟩).apply multi d0 = d0 ++ [⟨s.name, s.comment, []⟩] := addSection_new h _
    rw [this, hkeys]
    rfl

theorem fold_doc {multi : Bool} : ∀ {d d0 : Doc}, NamesDistinct (d0 ++ d) → (∀ s ∈ d, s.keys.Pairwise fun a b => ¬ SameCI a.name b.name) →
    (∀ s ∈ d, ∀ k ∈ s.keys, k.values ≠ []) → (multi = false → ∀ s ∈ d, ∀ k ∈ s.keys, k.values.length = 1) →
    (∀ s ∈ d, s.name = [] → s.comment = none ∧ s.keys ≠ []) →
    (d.flatMap sectionFound).foldl (fun d f => f.change.apply multi d) d0 = d0 ++ d
  | [], d0, _, _, _, _, _ => by simp
  | s :: d, d0, h1, h2, h3, h4, h5 => by
    have hs : ∀ e ∈ d0, ¬ SameCI e.name s.name := fun e he => (List.pairwise_append.mp h1).2.2 e he s (by simp)
    rw [List.flatMap_cons, List.foldl_append, fold_section hs (h2 s (by simp)) (h3 s (by simp)) (fun hm => h4 hm s (by simp)) (h5 s (by simp)),
      fold_doc (by rw [List.append_assoc]; exact h1) (fun s hs => h2 s (by simp [hs])) (fun s hs => h3 s (by simp [hs])) (fun hm s hs => h4 hm s (by simp [hs]))
        (fun s hs => h5 s (by simp [hs]))]
    simp

/-! ## The documents of objects -/

theorem sorted_distinct {α : Type} (order : α → Nat) (name : α → Bytes) {l : List α} (hs : SortedS name l) :
    (sortByOrder order name l).Pairwise fun a b => ¬ SameCI (name a) (name b) := by
  have h1 : l.Pairwise fun a b => ¬ SameCI (name a) (name b) := hs.imp fun hl hh => by
    rw [sameCI_iff, less_not_same hl] at hh; cases hh
  exact (List.Perm.pairwise_iff (fun h hh => h (sameCI_symm hh)) (sortByOrder_perm order name l)).mpr h1

theorem docWF {o : Options} {st : Store} (h : Inv o st) : DocWF o.multiKey (doc st) := by
  have hmem : ∀ s ∈ doc st, ∃ e ∈ st.sections, s = docSection e := by
    intro s hs
    obtain ⟨e, he, rfl⟩ := mem_doc.mp hs
    exact ⟨e, he, rfl⟩
  have hkmem : ∀ {e : Sect} {k : DocKey}, k ∈ (docSection e).keys → ∃ x ∈ firstKeys none e.keys, k = ⟨x.name, docValues x.name e.keys⟩ := by
    intro e k hk
    unfold docSection docKeys at hk
    obtain ⟨x, hx, rfl⟩ := List.mem_map.mp hk
    exact ⟨x, (mem_sortByOrder _ _).mp hx, rfl⟩
  refine ⟨?_, ?_, ?_, ?_⟩
  · unfold NamesDistinct doc
    rw [List.pairwise_map]
    exact sorted_distinct Sect.order Sect.name h.sorted
  · intro s hs
    obtain ⟨e, he, rfl⟩ := hmem s hs
    unfold docSection docKeys
    simp only
    rw [List.pairwise_map]
    exact sorted_distinct Key.order Key.name (h.keys e he).firstKeys_strict
  · intro s hs k hk
    obtain ⟨e, he, rfl⟩ := hmem s hs
    obtain ⟨x, hx, rfl⟩ := hkmem hk
    have := ((h.keys e he).exists_first x.name).mp ⟨x, hx, sameName_refl _⟩
    unfold docValues
    simpa using this
  · intro hm s hs k hk
    obtain ⟨e, he, rfl⟩ := hmem s hs
    obtain ⟨x, hx, rfl⟩ := hkmem hk
    have hne := ((h.keys e he).exists_first x.name).mp ⟨x, hx, sameName_refl _⟩
    have hso : SortedS Key.name (keysNamed x.name e.keys) := ((h.keys e he).strict hm).filter _
    unfold docValues
    simp only [List.length_map]
    cases hk' : keysNamed x.name e.keys with
    | nil => exact absurd hk' hne
    | cons a l =>
      cases l with
      | nil => rfl
      | cons b l =>
        rw [hk'] at hso
        have hab := (List.pairwise_cons.mp hso).1 b (by simp)
        have ha : sameName a.name x.name = true := (mem_keysNamed.mp (by rw [hk']; simp : a ∈ keysNamed x.name e.keys)).2
        have hb : sameName b.name x.name = true := (mem_keysNamed.mp (by rw [hk']; simp : b ∈ keysNamed x.name e.keys)).2
        rw [← same_congr_right hb] at ha
        rw [less_not_same hab] at ha
        cases ha

/-! ## Loading -/

theorem no_nul_render {o : Options} {ls : List Bytes} (h : ∀ l ∈ ls, 0 ∉ l) : 0 ∉ render o ls := by
  rw [render_eq, List.mem_flatMap]
  rintro ⟨l, hl, h0⟩
  rcases List.mem_append.mp h0 with h0 | h0
  · exact h l hl h0
  · revert h0; unfold newline; split <;> simp

theorem commentOk_no_nul {c : Bytes} (h : CommentOk c) : ∀ l ∈ linesOf c, 0 ∉ l := by
  intro l hl h0
  rcases h.1 l hl with rfl | hc
  · simp at h0
  · exact (hc.1 0 h0).2.2 rfl

theorem plain_no_nul {v : Bytes} (h : Plain v) : 0 ∉ v := fun h0 => (h.1 0 h0).2.2 rfl

theorem valueOk_no_nul {o : Options} {v : Bytes} (h : ValueOk o v) : 0 ∉ v := by
  unfold ValueOk at h
  split at h
  · rcases h with h | h
    · exact plain_no_nul h.1
    · exact h.2.1
  · exact plain_no_nul h

theorem valueLines_no_nul {o : Options} {k : Bytes} {v : Bytes × Option Bytes} (hk : KeyOk k) (hv : ValueOk o v.1) (hc : ∀ c, v.2 = some c → CommentOk c) :
    ∀ l ∈ valueLines o k v, 0 ∉ l := by
  have hk0 := plain_no_nul hk.1
  have hv0 := valueOk_no_nul hv
  have heq : 0 ∉ (if o.spaces = true then b!" = " else b!"=") := by split <;> decide
  intro l hl
  unfold valueLines at hl
  rcases List.mem_append.mp hl with hl | hl
  · cases hv2 : v.2 with
    | none => rw [hv2] at hl; simp at hl
    | some c =>
      rw [hv2] at hl
      rcases List.mem_cons.mp hl with rfl | hl
      · simp
      · exact commentOk_no_nul (hc c hv2) l hl
  · split at hl
    · rcases List.mem_append.mp hl with hl | hl
      · rcases List.mem_append.mp hl with hl | hl
        · rw [List.mem_singleton.mp hl]
          simp only [List.mem_append, not_or]
          exact ⟨⟨hk0, heq⟩, by decide⟩
        · intro h0; exact hv0 (linesOf_mem hl 0 h0).1
      · rw [List.mem_singleton.mp hl]; decide
    · rw [List.mem_singleton.mp hl]
      simp only [List.mem_append, not_or]
      exact ⟨⟨hk0, heq⟩, hv0⟩

theorem sectionLines_no_nul {o : Options} {fc : Option Bytes} {d : Doc} (h : DocOk o fc d) {s : DocSection} (hs : s ∈ d) (first : Bool) :
    ∀ l ∈ sectionLines o first s, 0 ∉ l := by
  intro l hl
  unfold sectionLines at hl
  simp only [List.mem_append] at hl
  rcases hl with ((hl | hl) | hl) | hl
  · split at hl
    · simp at hl
    · simp at hl; subst hl; simp
  · cases hc : s.comment with
    | none => rw [hc] at hl; simp [commentLines] at hl
    | some c => rw [hc] at hl; exact commentOk_no_nul (h.comments s hs c hc) l hl
  · split at hl
    · simp at hl
    · rw [List.mem_singleton.mp hl]
      have := plain_no_nul (h.names s hs).1
      simp [this]
  · obtain ⟨k, hk, hl⟩ := List.mem_flatMap.mp hl
    obtain ⟨v, hv, hl⟩ := List.mem_flatMap.mp hl
    have := h.values s hs k hk v hv
    exact valueLines_no_nul (h.keys s hs k hk) this.1 this.2 l hl

theorem docLines_no_nul {o : Options} {fc : Option Bytes} {d : Doc} (h : DocOk o fc d) : ∀ {e : Doc} (first : Bool), (∀ s ∈ e, s ∈ d) → ∀ l ∈ docLines o first e, 0 ∉ l
  | [], _, _ => by simp [docLines]
  | s :: e, first, he => by
    intro l hl
    rw [docLines] at hl
    rcases List.mem_append.mp hl with hl | hl
    · exact sectionLines_no_nul h (he s (by simp)) first l hl
    · exact docLines_no_nul h false (fun s hs => he s (by simp [hs])) l hl

theorem fileLines_no_nul {o : Options} {fc : Option Bytes} {d : Doc} (h : DocOk o fc d) : 0 ∉ render o (fileLines o fc d) := by
  refine no_nul_render ?_
  intro l hl
  unfold fileLines at hl
  simp only [List.mem_append, List.mem_singleton] at hl
  rcases hl with (hl | hl) | hl
  · cases hc : fc with
    | none => rw [hc] at hl; simp [commentLines] at hl
    | some c =>
      rw [hc] at hl
      have := (h.file c hc).2 l hl
      intro h0; exact (this.1 0 h0).2.2 rfl
  · exact docLines_no_nul h _ (fun s hs => hs) l hl
  · rw [hl]; simp

/-- What the text behind the comment of the file begins with. -/
theorem docLines_start (o : Options) (d : Doc) (t : Bytes) : ∃ c r, render o (docLines o false d ++ [[]]) ++ t = c :: r ∧ isNL c = true := by
  have hnl : ∀ u, ∃ c r, newline o ++ u = c :: r ∧ isNL c = true := by
    intro u
    unfold newline
    split
    · exact ⟨13, _, rfl, rfl⟩
    · exact ⟨10, _, rfl, rfl⟩
  cases d with
  | nil =>
    rw [docLines, List.nil_append, render_cons, List.nil_append, List.append_assoc]
    exact hnl _
  | cons s d =>
    rw [docLines]
    unfold sectionLines
    simp only [Bool.false_eq_true, if_false, List.append_assoc, List.cons_append, List.nil_append, render_cons]
    exact hnl _

/-- What a file without a comment begins with: no comment, and no byte order mark. -/
theorem first_start {o : Options} {d : Doc} (h : DocOk o none d) (hw : DocWF o.multiKey d) :
    startsComment (render o (docLines o true d ++ [[]])) = false ∧ (o.utf8 = true → ¬ [0xEF, 0xBB, 0xBF] <+: render o (docLines o true d ++ [[]])) := by
  have hnl : ∀ u, startsComment (newline o ++ u) = false ∧ ¬ [0xEF, 0xBB, 0xBF] <+: newline o ++ u := by
    intro u
    unfold newline
    split
    · refine ⟨rfl, ?_⟩
      rintro ⟨x, hx⟩; simp at hx
    · refine ⟨rfl, ?_⟩
      rintro ⟨x, hx⟩; simp at hx
  cases d with
  | nil =>
    rw [docLines, List.nil_append, render_cons, List.nil_append]
    exact ⟨(hnl _).1, fun _ => (hnl _).2⟩
  | cons s d =>
    have hc := h.first rfl s rfl
    rw [docLines]
    unfold sectionLines
    rw [hc]
    simp only [if_true, commentLines, List.nil_append, List.append_assoc]
    by_cases hs : s.name = []
    · rw [if_pos hs, List.nil_append]
      obtain ⟨k, ks, hks⟩ := List.exists_cons_of_ne_nil (h.nameless s (by simp) hs).2.2
      have hk : KeyOk k.name := h.keys s (by simp) k (by rw [hks]; simp)
      obtain ⟨v, vs, hvs⟩ := List.exists_cons_of_ne_nil (hw.some s (by simp) k (by rw [hks]; simp))
      rw [hks, List.flatMap_cons, hvs, List.flatMap_cons]
      simp only [List.append_assoc]
      unfold valueLines
      cases hv2 : v.2 with
      | some c =>
        simp only [List.cons_append, render_cons, List.nil_append, List.append_assoc]
        exact ⟨(hnl _).1, fun _ => (hnl _).2⟩
      | none =>
        simp only [List.nil_append]
        have hkey : ∀ eq u, (eq = b!" = " ∨ eq = b!"=") → startsComment (k.name ++ (eq ++ u)) = false
            ∧ (o.utf8 = true → ¬ [0xEF, 0xBB, 0xBF] <+: k.name ++ (eq ++ u)) := by
          intro eq u heq
          obtain ⟨_, _, x, r, hx, h1, h2, h3⟩ := hk
          refine ⟨by rw [hx]; simp [startsComment, isComment, h1, h2], ?_⟩
          intro hu hp
          have hm := h.mark hu s (by simp) hs k (by rw [hks]; simp)
          have he : ∃ y z, eq ++ u = y :: z ∧ (y = 32 ∨ y = 61) := by
            rcases heq with rfl | rfl
            · exact ⟨32, _, rfl, Or.inl rfl⟩
            · exact ⟨61, _, rfl, Or.inr rfl⟩
          obtain ⟨y, z, hyz, hy⟩ := he
          rw [hyz] at hp
          obtain ⟨w, hw⟩ := hp
          generalize k.name = kn at hw hm
          match kn, hw, hm with
          | [], hw, _ => rcases hy with rfl | rfl <;> simp at hw
          | [_], hw, _ => rcases hy with rfl | rfl <;> simp at hw
          | [_, _], hw, _ => rcases hy with rfl | rfl <;> simp at hw
          | a :: b :: c :: r, hw, hm =>
            simp only [List.cons_append, List.nil_append, List.cons.injEq] at hw
            obtain ⟨rfl, rfl, rfl, _⟩ := hw
            exact hm ⟨r, rfl⟩
        split
        · simp only [List.cons_append, render_cons, List.append_assoc]
          exact hkey _ _ (by split <;> simp)
        · simp only [List.cons_append, render_cons, List.append_assoc]
          exact hkey _ _ (by split <;> simp)
    · rw [if_neg hs]
      simp only [List.cons_append, List.append_assoc, render_cons, List.nil_append]
      refine ⟨rfl, fun _ => ?_⟩
      rintro ⟨x, hx⟩
      simp at hx

end Licensecc.IniStore
