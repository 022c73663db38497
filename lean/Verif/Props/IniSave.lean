import Verif.Lemmas.IniRoundTrip
import Verif.Lemmas.IniLoaded
import Verif.Props.IniStore
/-!
# C75: what is saved is what is loaded
-/
namespace Licensecc
open Ini hiding getValue getAllKeys getSectionSize setKey load
open IniStore Spec Spec.IniStore

/-- The objects a program can have: empty, changed, loaded into. -/
inductive IniStore.Reachable (o : Options) : Store → Prop where
  | empty : Reachable o {}
  | change {st : Store} (h : Reachable o st) (c : Change) : Reachable o (change o c st).2
  | load {st st' : Store} (h : Reachable o st) (t : Bytes) (hl : load o t st = some st') : Reachable o st'

namespace IniStore

theorem Inv.of_sections {o : Options} {st : Store} (h : Inv o st) (fc : Option Bytes) : Inv o { st with fileComment := fc } := by
  obtain ⟨a, b, c, d⟩ := h
  exact ⟨a, b, c, d⟩

theorem Inv.load {o : Options} {st st' : Store} (h : Inv o st) (t : Bytes) (hl : load o t st = some st') : Inv o st' := by
  unfold IniStore.load at hl
  obtain ⟨l, _, rfl⟩ := Option.map_eq_some_iff.mp hl
  exact inv_addAll l (h.of_sections _)

theorem Reachable.inv {o : Options} {st : Store} (h : Reachable o st) : Inv o st := by
  induction h with
  | empty => exact Inv.empty o
  | change _ c ih => exact ih.change c
  | load _ t hl ih => exact ih.load t hl

theorem Reachable.run (o : Options) (h : List Change) : Reachable o (run o h) := by
  induction h with
  | nil => exact .empty
  | cons c h ih => exact ih.change c

theorem noNul_of_doc {o : Options} {st : Store} (h : Inv o st) (h0 : ∀ s ∈ doc st, ∀ k ∈ s.keys, ∀ v ∈ k.values, 0 ∉ v.1) : NoNul st := by
  intro s hs k hk
  have hn : keysNamed k.name s.keys ≠ [] := fun hh => by
    have : k ∈ keysNamed k.name s.keys := mem_keysNamed.mpr ⟨hk, sameName_refl _⟩
    rw [hh] at this; cases this
  obtain ⟨e, he, hsame⟩ := ((h.keys s hs).exists_first k.name).mpr hn
  refine h0 (docSection s) (mem_doc.mpr ⟨s, hs, rfl⟩) ⟨e.name, docValues e.name s.keys⟩ ?_ (k.value, k.comment) ?_
  · unfold docSection docKeys
    exact List.mem_map.mpr ⟨e, (mem_sortByOrder _ _).mpr he, rfl⟩
  · unfold docValues
    exact List.mem_map.mpr ⟨k, mem_keysNamed.mpr ⟨hk, by rw [same_symm hsame]⟩, rfl⟩

theorem noNul_of_docOk {o : Options} {st : Store} (h : Inv o st) {fc : Option Bytes} (h0 : DocOk o fc (doc st)) : NoNul st :=
  noNul_of_doc h fun s hs k hk v hv => valueOk_no_nul (h0.values s hs k hk v hv).1

theorem startsComment_nl {c : UInt8} {r : Bytes} (h : isNL c = true) : startsComment (c :: r) = false := by
  have hh : ∀ c : UInt8, isNL c = true → isComment c = false := forall_uint8 (by decide +kernel)
  exact hh c h

/-- The text without its mark. -/
theorem dropMark_save {o : Options} {d : Doc} {fc : Option Bytes} (h : DocOk o fc d) (hw : DocWF o.multiKey d) (sig : Bool) :
    dropMark o ((if o.utf8 && sig then [0xEF, 0xBB, 0xBF] else []) ++ render o (fileLines o fc d)) = render o (fileLines o fc d) := by
  unfold dropMark
  by_cases hu : o.utf8 = true
  · by_cases hsig : sig = true
    · simp [hu, hsig]
    · have hs : sig = false := by simpa using hsig
      simp only [hu, hs, Bool.and_false, Bool.false_eq_true, if_false, List.nil_append, Bool.true_and]
      rw [if_neg]
      intro hh
      have hp : [0xEF, 0xBB, 0xBF] <+: render o (fileLines o fc d) := by
        rw [beq_iff_eq] at hh
        rw [← hh]
        exact List.take_prefix _ _
      cases hc : fc with
      | none =>
        subst hc
        refine (first_start h hw).2 hu ?_
        exact hp
      | some c =>
        subst hc
        obtain ⟨hne, hl⟩ := h.file c rfl
        obtain ⟨l, ls, hls⟩ := List.exists_cons_of_ne_nil (linesOf_ne hne)
        obtain ⟨_, a, r, hlr, ha⟩ := hl l (by rw [hls]; simp)
        unfold fileLines commentLines at hp
        simp only [hls, List.cons_append, render_cons, hlr] at hp
        obtain ⟨x, hx⟩ := hp
        simp only [List.cons_append, List.cons.injEq] at hx
        rcases ha with rfl | rfl
        · exact absurd hx.1 (by decide)
        · exact absurd hx.1 (by decide)
  · have hu : o.utf8 = false := by simpa using hu
    simp [hu]

/-- The comment of the file. -/
theorem findFileComment_save {o : Options} {d : Doc} {fc : Option Bytes} (h : DocOk o fc d) (hw : DocWF o.multiKey d) :
    findFileComment {} (render o (fileLines o fc d)) = (fc, render o (docLines o fc.isNone d ++ [[]])) := by
  unfold findFileComment
  simp only
  cases hc : fc with
  | none =>
    subst hc
    have := (first_start h hw).1
    unfold fileLines commentLines
    rw [List.nil_append]
    show (if startsComment (render o (docLines o true d ++ [[]])) = true then _ else _) = _
    rw [this]
    rfl
  | some c =>
    subst hc
    obtain ⟨hne, hl⟩ := h.file c rfl
    have hlast : ∃ l, (linesOf c).getLast? = some l ∧ CommentLine l := by
      cases hg : (linesOf c).getLast? with
      | none => exact absurd (List.getLast?_eq_none_iff.mp hg) (linesOf_ne hne)
      | some l => exact ⟨l, rfl, hl l (List.mem_of_getLast? hg)⟩
    have e : render o (fileLines o (some c) d) = render o (linesOf c) ++ render o (docLines o false d ++ [[]]) := by
      unfold fileLines commentLines
      rw [List.append_assoc, render_append]
      rfl
    rw [e]
    have hst : startsComment (render o (docLines o false d ++ [[]])) = false := by
      obtain ⟨x, r, hx, hnl⟩ := docLines_start o d []
      rw [List.append_nil] at hx
      rw [hx]; exact startsComment_nl hnl
    have hs : startsComment (render o (linesOf c) ++ render o (docLines o false d ++ [[]])) = true := by
      obtain ⟨l, ls, hls⟩ := List.exists_cons_of_ne_nil (linesOf_ne hne)
      rw [hls, render_cons, List.append_assoc, List.append_assoc]
      exact commentLine_starts (hl l (by rw [hls]; simp)) _
    have ht := ctext_lines (o := o) (b := false) hst (by simp) (ls := linesOf c) [] (fun l hh => Or.inr (hl l hh)) hlast
    rw [if_pos hs, commentText_eq_ctext false hs, ht, List.nil_append, linesOf_join]
    rfl

theorem load_save {o : Options} {st : Store} (h : Inv o st) (hd : DocOk o st.fileComment (doc st)) (sig : Bool) :
    ∃ st', load o (save o sig st) {} = some st' ∧ Inv o st' ∧ doc st' = doc st ∧ st'.fileComment = st.fileComment := by
  have hw := docWF h
  rw [save_eq h (noNul_of_docOk h hd)]
  unfold load
  rw [dropMark_save hd hw, cut_of_no_nul (fileLines_no_nul hd), findFileComment_save hd hw]
  simp only
  rw [findAll_eq_found (Nat.lt_succ_self _), found_doc hd hw.names]
  have hi : Inv o ({ fileComment := st.fileComment } : Store) := (Inv.empty o).of_sections st.fileComment
  refine ⟨_, rfl, inv_addAll _ hi, ?_, addAll_fileComment _ _ _⟩
  rw [doc_addAll _ hi]
  have e : doc ({ fileComment := st.fileComment } : Store) = [] := rfl
  rw [e, fold_doc hw.names hw.keys hw.some hw.one (fun s hs hn => (hd.nameless s hs hn).2)]
  rfl

end IniStore

namespace IniStore

theorem findEvery_of_findAll (o : Options) (copy : Bool) : ∀ (fuel : Nat) (sect : Bytes) (comment : Option Bytes) (t : Bytes) (l : List Found),
    findAll o fuel sect comment t = some l → findEvery o copy fuel (.named sect) comment t = l
  | 0, sect, comment, t, l, h => by cases h; rfl
  | fuel + 1, sect, comment, t, l, h => by
    rw [findAll] at h
    rw [findEvery]
    simp only at h ⊢
    split
    · rename_i hc
      rw [if_pos hc] at h
      exact findEvery_of_findAll o copy fuel sect _ _ l h
    · rename_i hc
      rw [if_neg hc] at h
      split at h
      · cases h; rfl
      · exact findEvery_of_findAll o copy fuel sect _ _ l h
      · cases h
      · obtain ⟨l', hl, rfl⟩ := Option.map_eq_some_iff.mp h
        simp only [findEvery_of_findAll o copy fuel _ _ _ l' hl]
      · simp only [Place.name]
        split at h
        · rename_i hm
          rw [if_pos hm]
          split at h
          · cases h; simp only
          · cases h
          · obtain ⟨l', hl, rfl⟩ := Option.map_eq_some_iff.mp h
            simp only [findEvery_of_findAll o copy fuel _ _ _ l' hl]
        · rename_i hm
          rw [if_neg hm]
          obtain ⟨l', hl, rfl⟩ := Option.map_eq_some_iff.mp h
          rw [findEvery_of_findAll o copy fuel _ _ _ l' hl]

end IniStore

/-- C75. Loading of texts without malformed headers, and without values that begin with their tag, agrees with loading of all texts. -/
theorem C75_every (o : Options) (copy : Bool) (t : Bytes) (st : Store) {st' : Store} (h : load o t st = some st') : loadEvery o copy t st = st' := by
  unfold load at h
  obtain ⟨l, hl, rfl⟩ := Option.map_eq_some_iff.mp h
  unfold loadEvery
  simp only
  rw [findEvery_of_findAll _ _ _ _ _ _ _ hl]

/-- C75. Whatever the history of an object, if its contents can be expressed in a file (the conditions of `DocOk`, on the bytes of names, values
    and comments) then loading the text that was saved into a new object gives the same contents: sections, keys, values and comments, in the same
    order, and the comment of the file; with every setting of the options, and with or without the byte order mark. -/
theorem C75_round_trip (o : Options) (sig : Bool) {st : Store} (h : Reachable o st) (hd : DocOk o st.fileComment (contents o st)) :
    ∃ st', load o (save o sig st) {} = some st' ∧ contents o st' = contents o st ∧ st'.fileComment = st.fileComment := by
  rw [contents_eq h.inv] at hd ⊢
  obtain ⟨st', h1, h2, h3, h4⟩ := load_save h.inv hd sig
  exact ⟨st', h1, by rw [contents_eq h2, h3], h4⟩

/-- C75. The text that is saved: the byte order mark if asked for and the object is in UTF-8, then the lines of the comment of the file, of each section
    and each key in the order in which they came. Nothing is assumed of the names and comments, and of the values only that they are C strings. -/
theorem C75_layout (o : Options) (sig : Bool) {st : Store} (h : Reachable o st) (h0 : ∀ s ∈ contents o st, ∀ k ∈ s.keys, ∀ v ∈ k.values, 0 ∉ v.1) :
    save o sig st = (if o.utf8 = true ∧ sig = true then [0xEF, 0xBB, 0xBF] else []) ++ render o (fileLines o st.fileComment (contents o st)) := by
  rw [contents_eq h.inv] at h0 ⊢
  rw [save_eq h.inv (noNul_of_doc h.inv h0)]
  simp only [Bool.and_eq_true]

/-- C75. The loaded object saves as the very same text. -/
theorem C75_save_again (o : Options) (sig : Bool) {st : Store} (h : Reachable o st) (hd : DocOk o st.fileComment (contents o st)) :
    (load o (save o sig st) {}).map (save o sig) = some (save o sig st) := by
  rw [contents_eq h.inv] at hd
  obtain ⟨st', h1, h2, h3, h4⟩ := load_save h.inv hd sig
  rw [h1, Option.map_some, save_eq h.inv (noNul_of_docOk h.inv hd), save_eq h2 (noNul_of_docOk h2 (fc := st'.fileComment) (by rw [h3, h4]; exact hd)), h3, h4]

namespace IniStore

theorem run_fileComment (o : Options) : ∀ h : List Change, (run o h).fileComment = none
  | [] => rfl
  | .set s k v c force :: h => (addEntry_fileComment o s _ c force _).trans (run_fileComment o h)
  | .addSection s c :: h => (addEntry_fileComment o s none c false _).trans (run_fileComment o h)
  | .delete s k re :: h => by
    have ih := run_fileComment o h
    show (delete s k re (run o h)).2.fileComment = none
    unfold delete
    split
    · exact ih
    · split
      · exact ih
      · split
        · exact ih
        · split <;> exact ih

theorem values_contents {o : Options} {st : Store} (h : Inv o st) (s k : Bytes) :
    (getAllValues o st s k).map (·.value) = (Doc.values (contents o st) s k).map (·.1) := by
  rw [contents_eq h, getAllValues_eq h, doc_values h, List.map_map]
  rfl

open Classical in
theorem mem_withSection {s : Bytes} {c : Option Bytes} {d : Doc} {x : DocSection} (h : x ∈ withSection s c d) : x ∈ d ∨ x = ⟨s, c, []⟩ := by
  unfold withSection at h
  split at h
  · exact Or.inl h
  · simpa using h

open Classical in
theorem mem_withKey {multi : Bool} {k v : Bytes} {c : Option Bytes} {force : Bool} {keys : List DocKey} {x : DocKey} (h : x ∈ withKey multi k v c force keys) :
    (∃ e ∈ keys, (x.name = e.name ∨ x.name = k) ∧ ∀ w ∈ x.values, w ∈ e.values ∨ (w.1 = v ∧ (w.2 = c ∨ w.2 = none ∨ ∃ u ∈ e.values, w.2 = u.2)))
      ∨ x = ⟨k, [(v, c)]⟩ := by
  have hfc : ∀ l : List (Bytes × Option Bytes), firstComment l = none ∨ ∃ u ∈ l, firstComment l = u.2 := by
    intro l
    cases l with
    | nil => exact Or.inl rfl
    | cons a l => exact Or.inr ⟨a, by simp, rfl⟩
  unfold withKey at h
  split at h
  · obtain ⟨e, he, rfl⟩ := List.mem_map.mp h
    refine Or.inl ⟨e, he, ?_⟩
    split
    · split
      · split
        · refine ⟨Or.inr rfl, ?_⟩
          intro w hw
          rw [List.mem_singleton.mp hw]
          refine Or.inr ⟨rfl, ?_⟩
          rcases hfc e.values with h | ⟨u, hu, h⟩
          · rw [h]; exact Or.inl rfl
          · rw [h]
            cases hu2 : u.2 with
            | none => exact Or.inl rfl
            | some y => exact Or.inr (Or.inr ⟨u, hu, by rw [hu2]; rfl⟩)
        · refine ⟨Or.inl rfl, ?_⟩
          intro w hw
          rcases List.mem_append.mp hw with hw | hw
          · exact Or.inl hw
          · rw [List.mem_singleton.mp hw]
            exact Or.inr ⟨rfl, Or.inl rfl⟩
      · refine ⟨Or.inl rfl, ?_⟩
        intro w hw
        rw [List.mem_singleton.mp hw]
        refine Or.inr ⟨rfl, Or.inr ?_⟩
        exact hfc e.values
    · exact ⟨Or.inl rfl, fun w hw => Or.inl hw⟩
  · rcases List.mem_append.mp h with h | h
    · exact Or.inl ⟨x, h, Or.inl rfl, fun w hw => Or.inl hw⟩
    · exact Or.inr (List.mem_singleton.mp h)

/-- Something that holds of all names, values and comments of a document. -/
structure AllOf (S : Bytes → Option Bytes → Prop) (K V : Bytes → Prop) (C : Option Bytes → Prop) (d : Doc) : Prop where
  names : ∀ s ∈ d, S s.name s.comment
  keys : ∀ s ∈ d, ∀ k ∈ s.keys, K k.name
  values : ∀ s ∈ d, ∀ k ∈ s.keys, ∀ v ∈ k.values, V v.1 ∧ C v.2

section
variable {S : Bytes → Option Bytes → Prop} {K V : Bytes → Prop} {C : Option Bytes → Prop}

theorem AllOf.nil : AllOf S K V C [] := ⟨by simp, by simp, by simp⟩

theorem AllOf.withSection {d : Doc} (h : AllOf S K V C d) {s : Bytes} {c : Option Bytes} (h1 : S s c) : AllOf S K V C (withSection s c d) := by
  refine ⟨?_, ?_, ?_⟩
  · intro x hx
    rcases mem_withSection hx with hx | rfl
    · exact h.names x hx
    · exact h1
  · intro x hx
    rcases mem_withSection hx with hx | rfl
    · exact h.keys x hx
    · simp
  · intro x hx
    rcases mem_withSection hx with hx | rfl
    · exact h.values x hx
    · simp

open Classical in
theorem AllOf.set {multi : Bool} {d : Doc} (h : AllOf S K V C d) {s k v : Bytes} {c : Option Bytes} {force : Bool} (h1 : S s none) (h3 : K k) (h4 : V v)
    (h5 : C c) (h6 : C none) : AllOf S K V C ((Change.set s k v c force).apply multi d) := by
  have hw := h.withSection h1
  unfold Change.apply
  have hmem : ∀ x, x ∈ (Spec.IniStore.withSection s none d).map (fun e => if SameCI e.name s then { e with keys := withKey multi k v c force e.keys } else e) →
      ∃ e ∈ Spec.IniStore.withSection s none d, x.name = e.name ∧ x.comment = e.comment ∧ (x.keys = e.keys ∨ x.keys = withKey multi k v c force e.keys) := by
    intro x hx
    obtain ⟨e, he, rfl⟩ := List.mem_map.mp hx
    refine ⟨e, he, ?_⟩
    split
    · exact ⟨rfl, rfl, Or.inr rfl⟩
    · exact ⟨rfl, rfl, Or.inl rfl⟩
  refine ⟨?_, ?_, ?_⟩
  · intro x hx
    obtain ⟨e, he, h1, h2, _⟩ := hmem x hx
    rw [h1, h2]; exact hw.names e he
  · intro x hx y hy
    obtain ⟨e, he, _, _, hk | hk⟩ := hmem x hx
    · rw [hk] at hy; exact hw.keys e he y hy
    · rw [hk] at hy
      rcases mem_withKey hy with ⟨z, hz, hn | hn, _⟩ | rfl
      · rw [hn]; exact hw.keys e he z hz
      · rw [hn]; exact h3
      · exact h3
  · intro x hx y hy w hwv
    obtain ⟨e, he, _, _, hk | hk⟩ := hmem x hx
    · rw [hk] at hy; exact hw.values e he y hy w hwv
    · rw [hk] at hy
      rcases mem_withKey hy with ⟨z, hz, _, hv⟩ | rfl
      · rcases hv w hwv with hv | ⟨hv1, hv2⟩
        · exact hw.values e he z hz w hv
        · refine ⟨by rw [hv1]; exact h4, ?_⟩
          rcases hv2 with hv2 | hv2 | ⟨u, hu, hv2⟩
          · rw [hv2]; exact h5
          · rw [hv2]; exact h6
          · rw [hv2]; exact (hw.values e he z hz u hu).2
      · rw [List.mem_singleton.mp hwv]
        exact ⟨h4, h5⟩

open Classical in
theorem AllOf.delete {multi : Bool} {d : Doc} (h : AllOf S K V C d) (s : Bytes) (k : Option Bytes) (re : Bool) : AllOf S K V C ((Change.delete s k re).apply multi d) := by
  cases k with
  | none =>
    unfold Change.apply
    exact ⟨fun x hx => h.names x (List.mem_filter.mp hx).1, fun x hx => h.keys x (List.mem_filter.mp hx).1, fun x hx => h.values x (List.mem_filter.mp hx).1⟩
  | some k =>
    unfold Change.apply
    have hmem : ∀ x, x ∈ ((d.map fun e => if SameCI e.name s then { e with keys := e.keys.filter fun e => decide (¬ SameCI e.name k) } else e).filter fun e =>
        decide (¬ (re = true ∧ SameCI e.name s ∧ e.keys = [] ∧ d.values s k ≠ []))) → ∃ e ∈ d, x.name = e.name ∧ x.comment = e.comment ∧ ∀ y ∈ x.keys, y ∈ e.keys := by
      intro x hx
      obtain ⟨e, he, rfl⟩ := List.mem_map.mp (List.mem_filter.mp hx).1
      refine ⟨e, he, ?_⟩
      split
      · exact ⟨rfl, rfl, fun y hy => (List.mem_filter.mp hy).1⟩
      · exact ⟨rfl, rfl, fun y hy => hy⟩
    refine ⟨?_, ?_, ?_⟩
    · intro x hx
      obtain ⟨e, he, h1, h2, _⟩ := hmem x hx
      rw [h1, h2]; exact h.names e he
    · intro x hx y hy
      obtain ⟨e, he, _, _, h3⟩ := hmem x hx
      exact h.keys e he y (h3 y hy)
    · intro x hx y hy
      obtain ⟨e, he, _, _, h3⟩ := hmem x hx
      exact h.values e he y (h3 y hy)

end

/-- What every document of a history of writable changes is. -/
abbrev Writable (o : Options) : Doc → Prop :=
  AllOf (fun s c => SectionNameOk s ∧ s ≠ [] ∧ c = none) KeyOk (ValueOk o) (fun c => ∀ x, c = some x → CommentOk x)

theorem Writable.docOk {o : Options} {d : Doc} (h : Writable o d) : DocOk o none d := by
  refine ⟨by simp, fun s hs => (h.names s hs).1, fun s hs hn => absurd hn (h.names s hs).2.1, ?_, ?_, h.keys, fun _ s hs hn => absurd hn (h.names s hs).2.1, h.values⟩
  · intro s hs c hc
    rw [(h.names s hs).2.2] at hc; cases hc
  · intro _ s hs
    exact (h.names s (List.mem_of_mem_head? hs)).2.2

theorem Writable.apply {o : Options} {d : Doc} (h : Writable o d) {c : Change} (hc : ChangeOk o c) : Writable o (c.apply o.multiKey d) := by
  cases c with
  | addSection s c => exact AllOf.withSection h hc
  | set s k v c force =>
    obtain ⟨h1, h2, h3, h4, h5⟩ := hc
    exact AllOf.set h ⟨h1, h2, rfl⟩ h3 h4 h5 (by simp)
  | delete s k re => exact AllOf.delete h s k re

theorem writable_history {o : Options} : ∀ {h : List Change}, (∀ c ∈ h, ChangeOk o c) → Writable o (docOf o.multiKey h)
  | [], _ => AllOf.nil
  | c :: h, hh => Writable.apply (writable_history fun c hc => hh c (by simp [hc])) (hh c (by simp))

/-- What every loaded document is. -/
abbrev Readable : Doc → Prop :=
  AllOf (fun s c => SectionNameOk s ∧ ∀ x, c = some x → CommentOk x) KeyOk Plain (fun c => ∀ x, c = some x → CommentOk x)

theorem readable_fold {multi : Bool} : ∀ {l : List Found} {d : Doc}, Readable d → (∀ f ∈ l, FoundOk f) → Readable (l.foldl (fun d f => f.change.apply multi d) d)
  | [], _, h, _ => h
  | f :: l, d, h, hf => by
    refine readable_fold (d := f.change.apply multi d) ?_ (fun f hh => hf f (by simp [hh]))
    obtain ⟨h1, h2, h3⟩ := hf f (by simp)
    unfold Found.change
    cases hk : f.kv with
    | none => exact AllOf.withSection h ⟨h1, h3⟩
    | some kv =>
      have := h2 kv.1 kv.2 hk
      exact AllOf.set h ⟨h1, by simp⟩ this.1 this.2 h3 (by simp)

theorem cut_no_nul (s : Bytes) : 0 ∉ cut s := by
  intro h
  have := (mem_takeWhile h).2
  simp at this

theorem sectionNameOk_nil : SectionNameOk [] := ⟨plain_nil, by simp⟩

theorem load_readable {o : Options} (hm : o.multiLine = false) (t : Bytes) {st st' : Store} (hi : Inv o st) (hr : Readable (doc st))
    (hfc : ∀ c, st.fileComment = some c → FileCommentOk c) (h : load o t st = some st') :
    Readable (doc st') ∧ ∀ c, st'.fileComment = some c → FileCommentOk c := by
  unfold load at h
  obtain ⟨l, hl, rfl⟩ := Option.map_eq_some_iff.mp h
  have h0 := cut_no_nul (dropMark o t)
  have hp : 0 ∉ (findFileComment st (cut (dropMark o t))).2 ∧ ∀ c, (findFileComment st (cut (dropMark o t))).1 = some c → FileCommentOk c := by
    unfold findFileComment
    split
    · rename_i c hc
      refine ⟨h0, ?_⟩
      intro x hx
      cases hx
      exact hfc c hc
    · split
      · rename_i hs
        have := fileComment_ok h0 hs
        refine ⟨fun hh => h0 (this.2 0 hh), ?_⟩
        intro x hx
        cases hx
        exact this.1
      · exact ⟨h0, by simp⟩
  rw [findAll_eq_found (Nat.lt_succ_self _)] at hl
  have hok := found_ok hm _ _ (Nat.le_refl _) hp.1 _ _ _ sectionNameOk_nil (by simp) hl
  refine ⟨?_, ?_⟩
  · rw [doc_addAll _ (hi.of_sections _)]
    exact readable_fold hr hok
  · rw [addAll_fileComment]
    exact hp.2

end IniStore

/-- C75. In particular, if every change of a history names a section, a key, a value and a comment that can be written, what `GetAllValues` gives in the
    loaded object is what the history says. -/
theorem C75_values (o : Options) (sig : Bool) (h : List Change) (hc : ∀ c ∈ h, ChangeOk o c) :
    ∃ st', load o (save o sig (run o h)) {} = some st' ∧ ∀ s k, (getAllValues o st' s k).map (·.value) = valuesOf o.multiKey s k h := by
  have hr := Reachable.run o h
  obtain ⟨st', h1, h2, h3⟩ := C75_round_trip o sig hr (by rw [run_fileComment, C74_contents]; exact (writable_history hc).docOk)
  refine ⟨st', h1, fun s k => ?_⟩
  rw [← C74_values, values_contents (Reachable.load .empty _ h1).inv, h2, ← values_contents hr.inv]

/-- C75. The conditions on names, keys, values and comments are needed: whatever text is loaded, with one line per value, everything found satisfies them.  So
    an object whose contents violate them never comes back from a file. -/
theorem C75_loaded (o : Options) (hm : o.multiLine = false) (t : Bytes) {st : Store} (h : load o t {} = some st) :
    (∀ s ∈ contents o st, SectionNameOk s.name ∧ (∀ c, s.comment = some c → CommentOk c)
      ∧ ∀ k ∈ s.keys, KeyOk k.name ∧ ∀ v ∈ k.values, ValueOk o v.1 ∧ ∀ c, v.2 = some c → CommentOk c)
    ∧ ∀ c, st.fileComment = some c → FileCommentOk c := by
  have hi := (Reachable.load (.empty (o := o)) t h).inv
  obtain ⟨h1, h2⟩ := load_readable hm t (Inv.empty o) AllOf.nil (by simp) h
  rw [contents_eq hi]
  refine ⟨fun s hs => ⟨(h1.names s hs).1, (h1.names s hs).2, fun k hk => ⟨h1.keys s hs k hk, fun v hv => ⟨?_, (h1.values s hs k hk v hv).2⟩⟩⟩, h2⟩
  unfold ValueOk
  rw [hm]
  exact (h1.values s hs k hk v hv).1

/-- C75. Hence loading, saving and loading again changes nothing, for every text, if three things are avoided: sections without a name other than the keys
    before the first header, a comment above the first section that would be taken for the comment of the file, and a second byte order mark. -/
theorem C75_stable (o : Options) (hm : o.multiLine = false) (sig : Bool) (t : Bytes) {st : Store} (h : load o t {} = some st)
    (h1 : ∀ s ∈ contents o st, s.name = [] → (contents o st).head? = some s ∧ s.comment = none ∧ s.keys ≠ [])
    (h2 : st.fileComment = none → ∀ s, (contents o st).head? = some s → s.comment = none)
    (h3 : o.utf8 = true → ∀ s ∈ contents o st, s.name = [] → ∀ k ∈ s.keys, ¬ [0xEF, 0xBB, 0xBF] <+: k.name) :
    ∃ st', load o (save o sig st) {} = some st' ∧ contents o st' = contents o st ∧ st'.fileComment = st.fileComment := by
  obtain ⟨h4, h5⟩ := C75_loaded o hm t h
  refine C75_round_trip o sig (Reachable.load .empty t h) ⟨h5, fun s hs => (h4 s hs).1, h1, fun s hs => (h4 s hs).2.1, h2, ?_, h3, ?_⟩
  · intro s hs k hk
    exact ((h4 s hs).2.2 k hk).1
  · intro s hs k hk
    exact ((h4 s hs).2.2 k hk).2

/-! ## What the library reads -/

namespace IniStore

/-- A document as the data of Model/Ini. -/
def erase (d : Doc) : Ini.Data := d.map fun s => (s.name, s.keys.map fun k => (k.name, ((k.values.head?).map (·.1)).getD []))

/-- What the reader of the library does with a finding. -/
def eraseAdd (d : Ini.Data) (f : Found) : Ini.Data := match f.kv with
  | none => Ini.addSection f.sect d
  | some kv => Ini.addKey f.sect kv.1 kv.2 d

theorem build_found {o : Options} (hm : o.multiLine = false) : ∀ (n : Nat) (t : Bytes), t.length ≤ n → ∀ sect c l, found o sect c t = some l →
    ∀ d, Ini.build (some sect) d (parse t) = l.foldl eraseAdd d := by
  intro n
  induction n with
  | zero =>
    intro t ht sect c l hl d
    have : t = [] := List.eq_nil_of_length_eq_zero (by omega)
    subst this
    rw [found_nil] at hl
    cases hl
    rfl
  | succ n ih =>
    intro t ht sect c l hl d
    have hlen := length_dropWhile_le isSp t
    rw [found_eq] at hl
    rw [← parse_dropSpace]
    split at hl
    · rename_i hc
      have he : (commentText true (t.dropWhile isSp).length [] (t.dropWhile isSp)).2.length ≤ n := by
        rw [commentText_snd]
        cases hu : t.dropWhile isSp with
        | nil => rw [hu] at hc; cases hc
        | cons x r =>
          rw [hu] at hc hlen
          have := loadComment_progress (b := true) (n := (x :: r).length) (r := r) (show isComment x = true from hc) (by simp)
          rw [List.length_cons] at hlen
          omega
      have := ih _ he _ _ _ hl d
      rw [commentText_snd, parse_loadComment _ _ (Nat.le_refl _)] at this
      exact this
    · rw [parse_eq]
      have hp := step_progress (t.dropWhile isSp)
      split at hl
      · rename_i hs
        cases hl
        rw [hs]; rfl
      · rename_i r hs
        rw [hs] at hp ⊢
        have hr : r.length < (t.dropWhile isSp).length := by
          rcases hp with hp | hp
          · cases hp
          · exact hp
        exact ih r (by omega) _ _ _ hl d
      · cases hl
      · rename_i name r hs
        rw [hs] at hp ⊢
        have hr : r.length < (t.dropWhile isSp).length := by
          rcases hp with hp | hp
          · cases hp
          · exact hp
        obtain ⟨l', hl', rfl⟩ := Option.map_eq_some_iff.mp hl
        exact ih r (by omega) _ _ _ hl' _
      · rename_i k v r hs
        rw [hs] at hp ⊢
        have hr : r.length < (t.dropWhile isSp).length := by
          rcases hp with hp | hp
          · cases hp
          · exact hp
        simp only [hm, Bool.false_and, Bool.false_eq_true, if_false] at hl
        obtain ⟨l', hl', rfl⟩ := Option.map_eq_some_iff.mp hl
        exact ih r (by omega) _ _ _ hl' _

theorem any_erase (d : Doc) (s : Bytes) : ((erase d).any fun p => sameName p.1 s) = true ↔ ∃ e ∈ d, SameCI e.name s := by
  unfold erase
  rw [List.any_map, List.any_eq_true]
  simp only [Function.comp, sameCI_iff]

open Classical in
theorem erase_withSection (s : Bytes) (c : Option Bytes) (d : Doc) : erase (withSection s c d) = Ini.addSection s (erase d) := by
  unfold withSection Ini.addSection
  by_cases h : ∃ e ∈ d, SameCI e.name s
  · rw [if_pos h, if_pos ((any_erase d s).mpr h)]
  · rw [if_neg h, if_neg (fun hh => h ((any_erase d s).mp hh))]
    unfold erase
    rw [List.map_append]
    rfl

/-- The keys of a section as the data of Model/Ini. -/
def eraseKeys (ks : List DocKey) : Ini.KeyVal := ks.map fun k => (k.name, ((k.values.head?).map (·.1)).getD [])

open Classical in
theorem erase_withKey (k v : Bytes) (c : Option Bytes) (force : Bool) (ks : List DocKey) : eraseKeys (withKey false k v c force ks) = Ini.setKey k v (eraseKeys ks) := by
  have hany : ((eraseKeys ks).any fun p => sameName p.1 k) = true ↔ ∃ e ∈ ks, SameCI e.name k := by
    unfold eraseKeys
    rw [List.any_map, List.any_eq_true]
    simp only [Function.comp, sameCI_iff]
  unfold withKey Ini.setKey
  by_cases h : ∃ e ∈ ks, SameCI e.name k
  · rw [if_pos h, if_pos (hany.mpr h)]
    unfold eraseKeys
    rw [List.map_map, List.map_map]
    refine List.map_congr_left fun e _ => ?_
    simp only [Function.comp, Bool.false_eq_true, if_false]
    by_cases he : SameCI e.name k
    · rw [if_pos he, if_pos (sameCI_iff.mp he)]; rfl
    · rw [if_neg he, if_neg (fun hh => he (sameCI_iff.mpr hh))]
  · rw [if_neg h, if_neg (fun hh => h (hany.mp hh))]
    unfold eraseKeys
    rw [List.map_append]
    rfl

open Classical in
theorem erase_change (f : Found) (d : Doc) : erase (f.change.apply false d) = eraseAdd (erase d) f := by
  unfold Found.change eraseAdd
  cases f.kv with
  | none => exact erase_withSection f.sect f.comment d
  | some kv =>
    simp only
    unfold Change.apply Ini.addKey
    rw [← erase_withSection f.sect none d]
    simp only
    unfold erase
    rw [List.map_map, List.map_map]
    refine List.map_congr_left fun e _ => ?_
    simp only [Function.comp]
    by_cases he : SameCI e.name f.sect
    · rw [if_pos he, if_pos (sameCI_iff.mp he)]
      exact congrArg (Prod.mk e.name) (erase_withKey kv.1 kv.2 f.comment false e.keys)
    · rw [if_neg he, if_neg (fun hh => he (sameCI_iff.mpr hh))]

theorem erase_fold : ∀ (l : List Found) (d : Doc), erase (l.foldl (fun d f => f.change.apply false d) d) = l.foldl eraseAdd (erase d)
  | [], _ => rfl
  | f :: l, d => by
    rw [List.foldl_cons, List.foldl_cons, erase_fold l, erase_change]

end IniStore

/-- C75. The reader of the library, without comments and with a simpler representation (Model/Ini), reads from every text what this one reads with
    the default options: the same sections in the same order, the same keys and values. -/
theorem C75_reader (o : Options) (ho : o.multiKey = false ∧ o.multiLine = false ∧ o.utf8 = false) (t : Bytes) {st : Store} (h : load o t {} = some st) :
    Ini.load t = (contents o st).map fun s => (s.name, s.keys.map fun k => (k.name, ((k.values.head?).map (·.1)).getD [])) := by
  have hi := (Reachable.load (.empty (o := o)) t h).inv
  rw [contents_eq hi]
  show _ = erase (doc st)
  unfold load at h
  obtain ⟨l, hl, rfl⟩ := Option.map_eq_some_iff.mp h
  have hi0 : ∀ fc, Inv o ({ fileComment := fc } : Store) := fun fc => (Inv.empty o).of_sections fc
  rw [doc_addAll _ (hi0 _), ho.1, erase_fold]
  have hd : dropMark o t = t := by unfold dropMark; rw [ho.2.2]; rfl
  have hc : (findFileComment {} (cut (dropMark o t))).2 = loadComment false (cut t).length (cut t) := by
    rw [hd]
    unfold findFileComment
    simp only
    split
    · exact commentText_snd _ _ _ _
    · rename_i hs
      cases hu : (cut t).length with
      | zero => rfl
      | succ n =>
        rw [loadComment, if_neg hs]
        simp
  rw [hc, findAll_eq_found (Nat.lt_succ_self _)] at hl
  have := build_found ho.2.1 _ _ (Nat.le_refl _) _ _ _ hl []
  exact this

namespace IniStore

open Classical in
theorem getValue_erase {d : Doc} (h : ∀ s ∈ d, ∀ k ∈ s.keys, k.values ≠ []) (s k : Bytes) : Ini.getValue (erase d) s k = ((Doc.values d s k).head?).map (·.1) := by
  have hdec : ∀ a b : Bytes, decide (SameCI a b) = sameName a b := fun a b => by
    by_cases hh : sameName a b = true
    · simp [hh, sameCI_iff.mpr hh]
    · have : ¬ SameCI a b := fun x => hh (sameCI_iff.mp x)
      simp [hh, this]
  unfold Ini.getValue Ini.findSection Ini.findKey Doc.values Doc.section? DocSection.key? erase
  simp only [hdec]
  rw [List.find?_map]
  simp only [Function.comp_def]
  cases hs : d.find? (fun e => sameName e.name s) with
  | none => rfl
  | some e =>
    simp only [Option.map_some, Option.bind_some]
    rw [List.find?_map]
    simp only [Function.comp_def]
    cases hk : e.keys.find? (fun e => sameName e.name k) with
    | none => rfl
    | some x =>
      simp only [Option.map_some, Option.getD_some]
      obtain ⟨v, vs, hv⟩ := List.exists_cons_of_ne_nil (h e (List.mem_of_find?_eq_some hs) x (List.mem_of_find?_eq_some hk))
      rw [hv]
      rfl

theorem run_utf8 (o : Options) (u : Bool) : ∀ h : List Change, run { o with utf8 := u } h = run o h
  | [] => rfl
  | c :: h => by
    rw [run, run, run_utf8 o u h]
    cases c <;> rfl

theorem saveSections_utf8 (o : Options) (u : Bool) (st : Store) : ∀ (need : Bool) (l : List Sect), saveSections { o with utf8 := u } st need l = saveSections o st need l
  | _, [] => rfl
  | need, s :: l => by
    rw [saveSections, saveSections, saveSections_utf8 o u st true l]
    rfl

end IniStore

/-- C75. Hence what an issuer sets is what the library reads: for every history of writable changes to an object with one value per key and one line per value,
    saved without the byte order mark, with any spacing and either line break. -/
theorem C75_issuer (o : Options) (hk : o.multiKey = false) (hl : o.multiLine = false) (sig : Bool) (hs : o.utf8 = false ∨ sig = false) (h : List Change)
    (hc : ∀ c ∈ h, ChangeOk o c) (s k : Bytes) : Ini.getValue (Ini.load (save o sig (run o h))) s k = (valuesOf false s k h).head? := by
  have hsave : save o sig (run o h) = save { o with utf8 := false } false (run { o with utf8 := false } h) := by
    rw [run_utf8 o false h]
    have : (o.utf8 && sig) = false := by
      rcases hs with hs | hs
      · rw [hs]; rfl
      · rw [hs, Bool.and_false]
    unfold save
    simp only [this, Bool.false_and, saveSections_utf8 o false]
    rfl
  obtain ⟨st', h1, h2⟩ := C75_values { o with utf8 := false } false h (fun c hc' => by
    have := hc c hc'
    cases c <;> exact this)
  have hi := (Reachable.load .empty _ h1).inv
  have h3 := C75_reader { o with utf8 := false } ⟨hk, hl, rfl⟩ _ h1
  rw [contents_eq hi] at h3
  rw [hsave, h3]
  have h4 := getValue_erase (docWF hi).some s k
  have h5 := h2 s k
  rw [values_contents hi, contents_eq hi] at h5
  refine h4.trans ?_
  rw [← List.head?_map, h5]
  exact congrArg (fun m => (valuesOf m s k h).head?) hk

/-! ## What cannot be written -/

namespace IniStore

open Classical in
theorem docOf_one (multi : Bool) (s k v : Bytes) : docOf multi [.set s k v none false] = [⟨s, none, [⟨k, [(v, none)]⟩]⟩] := by
  simp [docOf, Change.apply, Spec.IniStore.withSection, withKey, sameCI_refl]

open Classical in
theorem docOf_two (multi : Bool) {s k v k2 v2 : Bytes} (h : ¬ SameCI k k2) :
    docOf multi [.set s k2 v2 none false, .set s k v none false] = [⟨s, none, [⟨k, [(v, none)]⟩, ⟨k2, [(v2, none)]⟩]⟩] := by
  rw [docOf, docOf_one]
  simp [Change.apply, Spec.IniStore.withSection, withKey, sameCI_refl, h]

end IniStore

/-- C75, finding. With one line per value nothing is quoted: setting a value with a line break writes the very file that setting two keys writes.  An issuer that
    copies a customer's text into a value lets the customer add any entry to the licence. -/
theorem C75_line_break (o : Options) (hl : o.multiLine = false) (sig : Bool) {s k v k2 v2 : Bytes} (h : ¬ SameCI k k2) (h0 : 0 ∉ v ∧ 0 ∉ k2 ∧ 0 ∉ v2) :
    save o sig (run o [.set s k (v ++ (if o.windows then [13, 10] else [10]) ++ k2 ++ (if o.spaces then b!" = " else b!"=") ++ v2) none false])
      = save o sig (run o [.set s k2 v2 none false, .set s k v none false]) := by
  rw [C75_layout o sig (Reachable.run o _), C75_layout o sig (Reachable.run o _), run_fileComment, run_fileComment, C74_contents, C74_contents, docOf_one, docOf_two o.multiKey h]
  · refine congrArg _ ?_
    simp [fileLines, docLines, sectionLines, valueLines, commentLines, render, hl]
  · rw [C74_contents, docOf_two o.multiKey h]
    simp [h0.1, h0.2.2]
  · rw [C74_contents, docOf_one]
    have h1 : (0 : UInt8) ∉ (if o.windows then [13, 10] else [10] : Bytes) := by split <;> decide
    have h2 : (0 : UInt8) ∉ (if o.spaces then b!" = " else b!"=" : Bytes) := by split <;> decide
    simp [h0.1, h0.2.1, h0.2.2, h1, h2]

/-! ## Examples -/

/-- a licence in the making: two sections, comments, a value of several lines, a change of mind -/
def IniStore.sampleHistory : List Change :=
  [.set b!"PROD" b!"Hosts" b!"a\nb " (some b!"; which\n\n# hosts") false, .delete b!"other" none false, .set b!"prod" b!"LIC_VER" b!"200" none false,
    .set b!"other" b!"k" b!"[x]=;y" none false, .set b!"PROD" b!"lic_ver" b!"100" none false]

theorem IniStore.sampleHistory_ok (o : Options) (h : o.multiLine = true) : ∀ c ∈ sampleHistory, ChangeOk o c := by
  have e1 : linesOf b!"; which\n\n# hosts" = [b!"; which", [], b!"# hosts"] := by decide +kernel
  have e2 : linesOf b!"a\nb " = [b!"a", b!"b "] := by decide +kernel
  have hc : CommentOk b!"; which\n\n# hosts" := by
    unfold CommentOk CommentLine OneLine
    rw [e1]
    refine ⟨?_, ⟨_, rfl, ?_⟩, ⟨_, rfl, ?_⟩⟩
    · intro l hl
      simp only [List.mem_cons, List.not_mem_nil, or_false] at hl
      rcases hl with rfl | rfl | rfl
      · exact Or.inr ⟨by decide +kernel, 59, _, rfl, by decide⟩
      · exact Or.inl rfl
      · exact Or.inr ⟨by decide +kernel, 35, _, rfl, by decide⟩
    · exact ⟨by decide +kernel, 59, _, rfl, by decide⟩
    · exact ⟨by decide +kernel, 35, _, rfl, by decide⟩
  have plain : ∀ v : Bytes, (v.all fun c => c != 10 && c != 13 && c != 0 && c != 32 && c != 9) = true → Plain v := by
    intro v hv
    rw [List.all_eq_true] at hv
    refine ⟨fun c hc => ?_, fun c hc => ?_, fun c hc => ?_⟩
    · have := hv c hc; simp at this; grind
    · have := hv c (List.mem_of_mem_head? hc); simp at this; grind
    · have := hv c (List.mem_of_getLast? hc); simp at this; grind
  have value : ∀ v : Bytes, Plain v → ¬ b!"<<<" <+: v → ValueOk o v := by
    intro v h1 h2
    unfold ValueOk
    rw [h]
    exact Or.inl ⟨h1, h2⟩
  intro c hc'
  unfold sampleHistory at hc'
  simp only [List.mem_cons, List.not_mem_nil, or_false] at hc'
  rcases hc' with rfl | rfl | rfl | rfl | rfl
  · refine ⟨⟨plain _ (by decide +kernel), by decide +kernel⟩, by decide +kernel, ⟨plain _ (by decide +kernel), by decide +kernel, 72, _, rfl, by decide⟩, ?_, ?_⟩
    · unfold ValueOk
      rw [h]
      refine Or.inr ⟨?_, by decide +kernel, by decide +kernel, ?_⟩
      · intro hp
        exact (hp.1 10 (by decide +kernel)).1 rfl
      · rw [e2]
        intro l hl
        simp only [List.mem_cons, List.not_mem_nil, or_false] at hl
        rcases hl with rfl | rfl <;> rw [sameCI_iff] <;> decide +kernel
    · intro c' hc''
      cases hc''
      exact hc
  · trivial
  · exact ⟨⟨plain _ (by decide +kernel), by decide +kernel⟩, by decide +kernel, ⟨plain _ (by decide +kernel), by decide +kernel, 76, _, rfl, by decide⟩,
      value _ (plain _ (by decide +kernel)) (by decide +kernel), by simp⟩
  · exact ⟨⟨plain _ (by decide +kernel), by decide +kernel⟩, by decide +kernel, ⟨plain _ (by decide +kernel), by decide +kernel, 107, _, rfl, by decide⟩,
      value _ (plain _ (by decide +kernel)) (by decide +kernel), by simp⟩
  · exact ⟨⟨plain _ (by decide +kernel), by decide +kernel⟩, by decide +kernel, ⟨plain _ (by decide +kernel), by decide +kernel, 108, _, rfl, by decide⟩,
      value _ (plain _ (by decide +kernel)) (by decide +kernel), by simp⟩

/-- it can be saved and read back -/
example : ∃ st', load { multiLine := true } (save { multiLine := true } true (run { multiLine := true } sampleHistory)) {} = some st'
    ∧ ∀ s k, (getAllValues { multiLine := true } st' s k).map (·.value) = valuesOf false s k sampleHistory :=
  C75_values { multiLine := true } true sampleHistory (sampleHistory_ok _ rfl)

/-- the text -/
example : save { multiLine := true } false (run { multiLine := true } sampleHistory)
    = b!"[PROD]\nlic_ver = 200\n\n; which\n\n# hosts\nHosts = <<<END_OF_TEXT\na\nb \nEND_OF_TEXT\n\n" := by decide +kernel

/-- a value with a line break in a licence of one line per value: the customer's name adds an entry -/
example : let o : Options := {}
    (load o (save o false (run o [.set b!"prod" b!"customer" b!"me\nvalid-to = 29991231" none false])) {}).map (fun st => (getValue o st b!"prod" b!"valid-to").1)
      = some (some b!"29991231") := by decide +kernel

/-- finding: keys without a section, added when there is a section already, are written into that section -/
example : let o : Options := {}
    (load o (save o false (run o [.set [] b!"k" b!"v" none false, .set b!"a" b!"x" b!"y" none false])) {}).map
      (fun st => ((getValue o st [] b!"k").1, (getValue o st b!"a" b!"k").1)) = some (none, some b!"v") := by decide +kernel

/-- finding: the comment of the first section becomes the comment of the file -/
example : let o : Options := {}
    (load o (save o false (run o [.addSection b!"a" (some b!"; about a")])) {}).map (fun st => (st.fileComment, st.sections.map (·.comment)))
      = some (some b!"; about a", [none]) := by decide +kernel

/-- finding: with several lines per value a value of one line that begins with `<<<` is not quoted; it swallows what follows -/
example : let o : Options := { multiLine := true }
    (load o (save o false (run o [.set b!"a" b!"y" b!"2" none false, .set b!"a" b!"x" b!"<<<1" none false])) {}).map
      (fun st => ((getValue o st b!"a" b!"x").1, (getValue o st b!"a" b!"y").1)) = some (some b!"y = 2\n\n", none) := by decide +kernel

/-- finding: a value in a file whose only line is its own tag; and if a line break follows, the value has no end of its own -/
example : (load { multiLine := true } b!"k = <<<TAG\nTAG" {}).map (fun st => (getValue {} st [] b!"k").1) = some (some b!"TAG")
    ∧ (getValue {} (loadEvery { multiLine := true } false b!"k = <<<TAG\nTAG\nx" {}) [] b!"k").1 = some b!"TAG\nx" := by decide +kernel

/-- finding: a file with a byte order mark is read by the library as if the first header were a line without `=` -/
example : Ini.getValue (Ini.load (save { utf8 := true } true (run { utf8 := true } [.set b!"prod" b!"lic_ver" b!"200" none false]))) b!"prod" b!"lic_ver" = none
    ∧ Ini.getValue (Ini.load (save { utf8 := true } true (run { utf8 := true } [.set b!"prod" b!"lic_ver" b!"200" none false]))) [] b!"lic_ver" = some b!"200" := by
  decide +kernel

/-- what the library reads of a file saved without the mark -/
example : Ini.getValue (Ini.load (save {} true (run {} [.set b!"Prod" b!"Lic_Ver" b!"200" none false, .set b!"prod" b!"lic_ver" b!"100" none false]))) b!"PROD" b!"LIC_VER"
    = some b!"200" := by decide +kernel

/-- a text of comments, keys before the first header, spaces: loading, saving and loading again changes nothing -/
example : let o : Options := { multiKey := true }
    ((load o b!"# file\r\n\r\n;; c\nk=v\n K=w\n[ A ] rest\n\n;d\n\n\n;e\nx = 1 = 2 \n" {}).bind fun st =>
      (load o (save o false st) {}).map fun st' => decide (contents o st' = contents o st ∧ st'.fileComment = st.fileComment)) = some true := by decide +kernel

end Licensecc
