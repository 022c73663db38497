import Verif.Lemmas.IniLines
/-!
# Licence files: what is read from a text (C07, C17, C18, C19, C20)
-/
namespace Licensecc.Ini
open Licensecc.Spec

/-! ## Names -/

theorem locase_spec (x y : UInt8) : locase x = locase y ↔
    x = y ∨ (65 ≤ x.toNat ∧ x.toNat ≤ 90 ∧ y.toNat = x.toNat + 32) ∨ (65 ≤ y.toNat ∧ y.toNat ≤ 90 ∧ x.toNat = y.toNat + 32) := by
  have hx : ∀ c : UInt8, (locase c).toNat = if 65 ≤ c.toNat ∧ c.toNat ≤ 90 then c.toNat + 32 else c.toNat :=
    forall_uint8 (by decide +kernel)
  rw [← UInt8.toNat_inj, hx, hx, ← UInt8.toNat_inj]
  split <;> split <;> omega

/-- The comparison of names of the code is equality ignoring ASCII case. -/
theorem sameName_iff (a b : Bytes) : sameName a b = true ↔ SameCI a b := by
  unfold sameName SameCI
  rw [beq_iff_eq]
  constructor
  · intro h
    have hl : a.length = b.length := by simpa using congrArg List.length h
    refine ⟨hl, fun i x y hx hy => ?_⟩
    have := congrArg (fun l : Bytes => l[i]?) h
    simp only [List.getElem?_map, hx, hy, Option.map_some, Option.some.injEq] at this
    exact (locase_spec x y).mp this
  · rintro ⟨hl, h⟩
    apply List.ext_getElem?
    intro i
    simp only [List.getElem?_map]
    by_cases hi : i < a.length
    · have hib : i < b.length := hl ▸ hi
      rw [List.getElem?_eq_getElem hi, List.getElem?_eq_getElem hib]
      simp only [Option.map_some, Option.some.injEq]
      exact (locase_spec _ _).mpr (h i _ _ (List.getElem?_eq_getElem hi) (List.getElem?_eq_getElem hib))
    · rw [List.getElem?_eq_none (by omega), List.getElem?_eq_none (by omega)]

theorem sameName_refl (a : Bytes) : sameName a a = true := by simp [sameName]
theorem sameName_comm (a b : Bytes) : sameName a b = sameName b a := by
  simp only [sameName, Bool.beq_comm]
theorem sameName_trans {a b : Bytes} (h : sameName a b = true) (c : Bytes) : sameName a c = sameName b c := by
  simp only [sameName, beq_iff_eq] at h ⊢; rw [h]

theorem sameName_nil {b : Bytes} : sameName [] b = true ↔ b = [] := by
  cases b <;> simp [sameName]

/-! ## Sections -/

theorem find_map_sec (s p : Bytes) (f : KeyVal → KeyVal) (d : Data) :
    (d.map fun q => if sameName q.1 s then (q.1, f q.2) else q).find? (fun q => sameName q.1 p)
      = if sameName s p then (d.find? fun q => sameName q.1 p).map (fun q => (q.1, f q.2))
        else d.find? fun q => sameName q.1 p := by
  induction d with
  | nil => simp
  | cons q d ih =>
    rw [List.map_cons, List.find?_cons, List.find?_cons, ih]
    cases hqp : sameName q.1 p with
    | true =>
      cases hqs : sameName q.1 s with
      | true =>
        have : sameName s p = true := by rw [← sameName_trans hqs]; exact hqp
        simp [this, hqp]
      | false =>
        have : sameName s p = false := by
          cases h : sameName s p with
          | false => rfl
          | true =>
            have := sameName_trans hqp s
            rw [sameName_comm p s, h, hqs] at this; simp at this
        simp [this, hqp]
    | false =>
      cases hqs : sameName q.1 s <;> simp [hqp]

theorem findSection_addSection (s p : Bytes) (d : Data) :
    findSection p (addSection s d) = if sameName s p then some ((findSection p d).getD []) else findSection p d := by
  unfold addSection findSection
  split
  · rename_i h
    split
    · rename_i hsp
      rw [List.any_eq_true] at h
      obtain ⟨q, hq, hqs⟩ := h
      cases hf : d.find? fun q => sameName q.1 p with
      | some r => rfl
      | none =>
        rw [List.find?_eq_none] at hf
        exact absurd (by rw [sameName_trans hqs]; exact hsp) (hf q hq)
    · rfl
  · rename_i h
    rw [List.find?_append]
    cases hf : d.find? fun q => sameName q.1 p with
    | some r =>
      simp only [Option.some_or, Option.map_some, Option.getD_some]
      split <;> rfl
    | none =>
      simp only [Option.none_or, List.find?_cons, List.find?_nil]
      cases hsp : sameName s p <;> simp

theorem findSection_addKey (s k v p : Bytes) (d : Data) :
    findSection p (addKey s k v d) =
      if sameName s p then some (setKey k v ((findSection p d).getD [])) else findSection p d := by
  have h := findSection_addSection s p d
  unfold addKey findSection at *
  rw [find_map_sec]
  split
  · rename_i hs
    rw [if_pos hs] at h
    rw [Option.map_map]
    have : ((fun x : Bytes × KeyVal => x.2) ∘ fun q : Bytes × KeyVal => (q.1, setKey k v q.2))
        = setKey k v ∘ (fun q : Bytes × KeyVal => q.2) := rfl
    rw [this, ← Option.map_map, h]; rfl
  · rename_i hs; rw [if_neg hs] at h; exact h

/-- The contents of a section, empty if there is none. -/
def contents (p : Bytes) (d : Data) : KeyVal := (findSection p d).getD []

/-- Does the current section have the name `p`? -/
def isCur (p : Bytes) : Option Bytes → Bool
  | none => false
  | some s => sameName s p

theorem decide_sameCI (a b : Bytes) (inst : Decidable (SameCI a b)) : @decide (SameCI a b) inst = sameName a b := by
  have := sameName_iff a b
  cases h : sameName a b with
  | true => rw [h] at this; simpa using this.mp rfl
  | false =>
    rw [h] at this
    simp only [Bool.false_eq_true, false_iff] at this
    simpa using this

theorem contents_build (p : Bytes) (is : List Item) : ∀ (cur : Option Bytes) (d : Data),
    contents p (build cur d is) =
      (entriesFrom p (isCur p cur) is).foldl (fun kv e => setKey e.1 e.2 kv) (contents p d) := by
  induction is with
  | nil => intro cur d; cases cur <;> rfl
  | cons i is ih =>
    intro cur d
    cases i with
    | header n =>
      rw [build, ih, entriesFrom, decide_sameCI]
      have : contents p (addSection n d) = contents p d := by
        unfold contents; rw [findSection_addSection]; split <;> rfl
      rw [this]; rfl
    | badHeader => rw [build, ih, entriesFrom]; rfl
    | entry k v =>
      cases cur with
      | none => rw [build, ih, isCur, entriesFrom]
      | some s =>
        rw [build, ih]
        have : contents p (addKey s k v d) = if sameName s p then setKey k v (contents p d) else contents p d := by
          unfold contents; rw [findSection_addKey]; split <;> rfl
        rw [this]
        cases hs : sameName s p with
        | true => simp [isCur, hs, entriesFrom]
        | false => simp [isCur, hs, entriesFrom]

/-- A section holds the entries of the sections with its name. -/
theorem contents_load (p s : Bytes) :
    contents p (load s) = (entriesOf p (items s)).foldl (fun kv e => setKey e.1 e.2 kv) [] := by
  unfold load entriesOf
  rw [contents_build]
  have : isCur p (some []) = decide (p = []) := by
    simp only [isCur]
    by_cases h : p = []
    · subst h; rfl
    · cases hs : sameName [] p with
      | false => simp [h]
      | true => exact absurd (sameName_nil.mp hs) h
  rw [this]
  have : contents p [] = [] := rfl
  rw [this]

/-! ## Keys -/

theorem findKey_setKey (k k' v : Bytes) (kv : KeyVal) :
    findKey k (setKey k' v kv) = if sameName k' k then some v else findKey k kv := by
  unfold findKey setKey
  split
  · rename_i h
    induction kv with
    | nil => simp at h
    | cons q kv ih =>
      rw [List.map_cons, List.find?_cons, List.find?_cons]
      cases hqk : sameName q.1 k with
      | true =>
        cases hqk' : sameName q.1 k' with
        | true =>
          have : sameName k' k = true := by rw [← sameName_trans hqk']; exact hqk
          simp [this, hqk]
        | false =>
          have : sameName k' k = false := by
            cases h' : sameName k' k with
            | false => rfl
            | true =>
              have := sameName_trans hqk k'
              rw [sameName_comm k k', h', hqk'] at this; simp at this
          simp [this, hqk]
      | false =>
        cases hqk' : sameName q.1 k' with
        | true =>
          have hkk : sameName k' k = false := by rw [← sameName_trans hqk']; exact hqk
          simp only [hqk, if_true, hkk]
          by_cases ha : kv.any (fun p => sameName p.1 k') = true
          · have := ih ha
            rw [hkk] at this
            exact this
          · have : (kv.map fun p => if sameName p.1 k' then (p.1, v) else p) = kv := by
              rw [List.map_congr_left (g := id)]
              · simp
              · intro q hq
                have : ¬ (sameName q.1 k' = true) := fun h => ha (List.any_eq_true.mpr ⟨q, hq, h⟩)
                simp [this]
            rw [this]; simp
        | false =>
          have ha : kv.any (fun p => sameName p.1 k') = true := by simpa [hqk'] using h
          simp only [hqk, Bool.false_eq_true, if_false]
          exact ih ha
  · rename_i h
    rw [List.find?_append]
    cases hf : kv.find? fun q => sameName q.1 k with
    | none =>
      simp only [Option.none_or, List.find?_cons, List.find?_nil]
      cases sameName k' k <;> simp
    | some q =>
      simp only [Option.some_or, Option.map_some]
      split
      · rename_i hk
        exfalso
        apply h
        rw [List.any_eq_true]
        have h1 := List.find?_some hf
        refine ⟨q, List.mem_of_find?_eq_some hf, ?_⟩
        have := sameName_trans h1 k'
        rw [this, sameName_comm]; exact hk
      · rfl

theorem keys_setKey (k v : Bytes) (kv : KeyVal) : (setKey k v kv).map (·.1) =
    if kv.any (fun p => sameName p.1 k) then kv.map (·.1) else kv.map (·.1) ++ [k] := by
  unfold setKey
  split
  · rw [List.map_map]
    apply List.map_congr_left
    intro q _
    simp only [Function.comp]
    split <;> rfl
  · simp

/-- The section built from a list of entries. -/
abbrev kvOf (es : List (Bytes × Bytes)) : KeyVal := es.foldl (fun kv e => setKey e.1 e.2 kv) []

theorem snocInd {α : Type} {P : List α → Prop} (h0 : P []) (h1 : ∀ l a, P l → P (l ++ [a])) : ∀ l, P l := by
  intro l
  have : ∀ r : List α, P r.reverse := by
    intro r
    induction r with
    | nil => exact h0
    | cons a r ih => rw [List.reverse_cons]; exact h1 _ _ ih
  simpa using this l.reverse

theorem kvOf_snoc (es : List (Bytes × Bytes)) (e : Bytes × Bytes) : kvOf (es ++ [e]) = setKey e.1 e.2 (kvOf es) := by
  simp [kvOf, List.foldl_append]

theorem findKey_kvOf (k : Bytes) (es : List (Bytes × Bytes)) : findKey k (kvOf es) = lastValue k es := by
  induction es using snocInd with
  | h0 => rfl
  | h1 es e ih =>
    rw [kvOf_snoc, findKey_setKey, ih]
    unfold lastValue
    rw [List.filter_append]
    cases h : sameName e.1 k <;> simp [List.filter_cons, decide_sameCI, h]

theorem any_kvOf (k : Bytes) (es : List (Bytes × Bytes)) :
    (kvOf es).any (fun p => sameName p.1 k) = es.any (fun p => sameName p.1 k) := by
  induction es using snocInd with
  | h0 => rfl
  | h1 es e ih =>
    rw [kvOf_snoc]
    have h1 : ∀ kv : KeyVal, kv.any (fun p => sameName p.1 k) = (kv.map (·.1)).any (fun p => sameName p k) := by
      intro kv; rw [List.any_map]; rfl
    rw [h1, keys_setKey]
    rw [h1] at ih
    split
    · rename_i h
      rw [ih, List.any_append]
      simp only [List.any_cons, List.any_nil, Bool.or_false]
      cases hk : sameName e.1 k with
      | false => simp
      | true =>
        rw [Bool.or_true, ← ih, List.any_map]
        rw [List.any_eq_true] at h ⊢
        obtain ⟨q, hq, hqe⟩ := h
        exact ⟨q, hq, by simp only [Function.comp]; rw [sameName_trans hqe]; exact hk⟩
    · rw [List.any_append, ih, List.any_append]; rfl

theorem mem_keys_kvOf (k : Bytes) (es : List (Bytes × Bytes)) :
    k ∈ (kvOf es).map (·.1) ↔ firstSpelling k es = some k := by
  induction es using snocInd with
  | h0 => simp [firstSpelling]
  | h1 es e ih =>
    have hfs : firstSpelling k (es ++ [e]) =
        (firstSpelling k es).or (if sameName e.1 k then some e.1 else none) := by
      unfold firstSpelling
      rw [List.filter_append]
      simp only [decide_sameCI, List.head?_append, List.filter_cons, List.filter_nil]
      cases h : (es.filter fun p => sameName p.1 k).head? with
      | none => cases sameName e.1 k <;> simp
      | some q => simp
    have hnone : firstSpelling k es = none ↔ es.any (fun p => sameName p.1 k) = false := by
      unfold firstSpelling
      simp only [decide_sameCI, Option.map_eq_none_iff, List.head?_eq_none_iff, List.filter_eq_nil_iff]
      rw [List.any_eq_false]
    rw [kvOf_snoc, keys_setKey, any_kvOf]
    split
    · rename_i h
      rw [ih, hfs]
      cases hf : firstSpelling k es with
      | some q => simp
      | none =>
        simp only [Option.none_or]
        constructor
        · intro h; simp at h
        · intro h2
          split at h2
          · rename_i h3
            simp at h2
            have := hnone.mp hf
            rw [← h2, h] at this; simp at this
          · simp at h2
    · rename_i h
      rw [List.mem_append, ih, hfs]
      cases hf : firstSpelling k es with
      | some q =>
        simp only [Option.some_or, List.mem_singleton]
        constructor
        · rintro (h1 | h1)
          · exact h1
          · subst h1
            exfalso
            have : ¬ (firstSpelling e.1 es = none) := by rw [hf]; simp
            rw [hnone, Bool.not_eq_false] at this
            exact h this
        · exact Or.inl
      | none =>
        simp only [Option.none_or, List.mem_singleton]
        constructor
        · rintro (h1 | h1)
          · simp at h1
          · subst h1; simp [sameName_refl]
        · intro h1
          split at h1
          · simp at h1; exact .inr h1.symm
          · simp at h1

theorem keys_pairwise (es : List (Bytes × Bytes)) :
    ((kvOf es).map (·.1)).Pairwise (fun a b => sameName a b = false) := by
  induction es using snocInd with
  | h0 => simp
  | h1 es e ih =>
    rw [kvOf_snoc, keys_setKey]
    split
    · exact ih
    · rename_i h
      rw [List.pairwise_append]
      refine ⟨ih, by simp, ?_⟩
      intro a ha b hb
      have hb' : b = e.1 := by simpa using hb
      subst hb'
      have hs : ¬ sameName a e.1 = true := by
        intro hs
        apply h
        rw [List.any_eq_true]
        simp only [List.mem_map] at ha
        obtain ⟨q, hq, rfl⟩ := ha
        exact ⟨q, hq, hs⟩
      simpa using hs

theorem kvOf_eq_nil (es : List (Bytes × Bytes)) : kvOf es = [] ↔ es = [] := by
  constructor
  · intro h
    cases es with
    | nil => rfl
    | cons e es =>
      have := any_kvOf e.1 (e :: es)
      rw [h] at this
      simp [sameName_refl] at this
  · rintro rfl; rfl

theorem getValue_contents (d : Data) (s k : Bytes) : getValue d s k = findKey k (contents s d) := by
  unfold getValue contents
  cases findSection s d <;> rfl

theorem getAllKeys_contents (d : Data) (s : Bytes) : getAllKeys d s = (contents s d).map (·.1) := by
  unfold getAllKeys contents
  cases findSection s d <;> rfl

theorem getSectionSize_contents (d : Data) (s : Bytes) : 0 < getSectionSize d s ↔ contents s d ≠ [] := by
  unfold getSectionSize contents
  cases findSection s d with
  | none => simp
  | some kv => cases kv <;> simp <;> omega

/-! ## The properties -/

/-- **C18**: the value read for a key is the last one given for it in the sections of that name, names compared ignoring
    ASCII case. -/
theorem C18_last_value (s p k : Bytes) : getValue (load s) p k = lastValue k (entriesOf p (items s)) := by
  rw [getValue_contents, contents_load, findKey_kvOf]

/-- **C18**: the keys listed for a section are the first spellings of the keys that occur, and each occurs once,
    ignoring case. -/
theorem C18_first_spelling (s p k : Bytes) :
    k ∈ getAllKeys (load s) p ↔ firstSpelling k (entriesOf p (items s)) = some k := by
  rw [getAllKeys_contents, contents_load, mem_keys_kvOf]

theorem C18_keys_distinct (s p : Bytes) : (getAllKeys (load s) p).Pairwise (fun a b => ¬ SameCI a b) := by
  rw [getAllKeys_contents, contents_load]
  refine (keys_pairwise _).imp ?_
  intro a b h hs
  rw [(sameName_iff a b).mpr hs] at h; simp at h

/-- **C18**: a section counts as present exactly when some entry belongs to it. -/
theorem C18_section_size (s p : Bytes) : 0 < getSectionSize (load s) p ↔ entriesOf p (items s) ≠ [] := by
  rw [getSectionSize_contents, contents_load]
  exact not_congr (kvOf_eq_nil _)

/-- **C18**: the letter case of the names asked for does not matter. -/
theorem C18_names_ignore_case {p q k l : Bytes} (s : Bytes) (hp : SameCI p q) (hk : SameCI k l) :
    getValue (load s) p k = getValue (load s) q l ∧ getAllKeys (load s) p = getAllKeys (load s) q
      ∧ getSectionSize (load s) p = getSectionSize (load s) q := by
  rw [← sameName_iff] at hp hk
  have e1 : ∀ d, findSection p d = findSection q d := by
    intro d; unfold findSection
    congr 2; funext r
    rw [sameName_comm, sameName_trans hp, sameName_comm]
  have e2 : ∀ d, findKey k d = findKey l d := by
    intro d; unfold findKey
    congr 2; funext r
    rw [sameName_comm, sameName_trans hk, sameName_comm]
  refine ⟨?_, ?_, ?_⟩
  · unfold getValue; rw [e1]; congr 1; funext d; exact e2 d
  · unfold getAllKeys; rw [e1]
  · unfold getSectionSize; rw [e1]

example : SameCI (b!"Feature-1") (b!"FEATURE-1") := by
  rw [← sameName_iff]; decide

/-- **C19**: in a text made of lines, only the headers and the entries matter. -/
theorem C19_only_entries_matter {t u : Text} (ht : t.WF) (hu : u.WF) (h : t.items = u.items) :
    load t.render = load u.render := by
  unfold load; rw [items_text ht, items_text hu, h]

theorem wf_cons {l : Line} {e : Bytes} {t : Text} (h : Text.WF ((l, e) :: t)) : l.WF ∧ t.WF := by
  cases t with
  | nil => exact ⟨h.1, trivial⟩
  | cons p t => exact ⟨h.1, h.2.2⟩

theorem wf_remove {a b : Text} {l : Line} {e : Bytes} (h : Text.WF (a ++ (l, e) :: b)) : Text.WF (a ++ b) := by
  induction a with
  | nil => exact (wf_cons h).2
  | cons p a ih =>
    obtain ⟨l', e'⟩ := p
    cases a with
    | nil =>
      obtain ⟨h1, h2, h3⟩ := h
      cases b with
      | nil => exact ⟨h1, .inl h2⟩
      | cons p b => exact ⟨h1, h2, (wf_cons h3).2⟩
    | cons q a =>
      obtain ⟨h1, h2, h3⟩ := h
      exact ⟨h1, h2, ih h3⟩

/-- **C19**: a blank line, a comment line, or a line without key or `=` can be inserted or removed anywhere between the
    lines of a licence without changing what is read. -/
theorem C19_insert_line {a b : Text} {l : Line} {e : Bytes} (h : Text.WF (a ++ (l, e) :: b)) (hl : l.item = none) :
    load (Text.render (a ++ (l, e) :: b)) = load (Text.render (a ++ b)) := by
  apply C19_only_entries_matter h (wf_remove h)
  simp [Text.items, List.filterMap_append, List.filterMap_cons, hl]

/-- **C19/C16**: indentation, the kind of line breaks, spaces around names, `=` and values do not matter: two texts whose
    lines mean the same are read the same.  Line-by-line version of `C19_only_entries_matter`. -/
theorem C19_layout {t u : Text} (ht : t.WF) (hu : u.WF) (h : t.map (fun p => p.1.item) = u.map (fun p => p.1.item)) :
    load t.render = load u.render := by
  apply C19_only_entries_matter ht hu
  have e : ∀ v : Text, v.items = (v.map fun p => p.1.item).filterMap id := by
    intro v; simp [Text.items, List.filterMap_map, Function.comp_def]
  rw [e, e, h]

/-! ### C17: round trip -/

/-- A name or value that can be written in a licence. -/
def CleanKey (k : Bytes) : Prop :=
  OneLine k ∧ Trimmed k ∧ 61 ∉ k ∧ ∃ c r, k = c :: r ∧ c ≠ 59 ∧ c ≠ 35 ∧ c ≠ 91
def CleanValue (v : Bytes) : Prop := OneLine v ∧ Trimmed v
def CleanSection (p : Bytes) : Prop := OneLine p ∧ Trimmed p ∧ 93 ∉ p

/-- The text of a licence: `[SECTION]`, then a `key = value` line per pair. -/
def writeLicense (p : Bytes) (kvs : List (Bytes × Bytes)) : Bytes :=
  91 :: (p ++ (b!"]\n" ++ kvs.flatMap fun e => e.1 ++ (b!" = " ++ (e.2 ++ (b!"\n")))))

def licenseText (p : Bytes) (kvs : List (Bytes × Bytes)) : Text :=
  (.header [] [] p [] [], [10]) :: kvs.map fun e => (.entry [] e.1 [32] [32] e.2 [], [10])

theorem licenseText_render (p : Bytes) (kvs : List (Bytes × Bytes)) : (licenseText p kvs).render = writeLicense p kvs := by
  rw [licenseText, Text.render, writeLicense, List.flatMap_cons]
  have : (kvs.map fun e => ((Line.entry [] e.1 [32] [32] e.2 [], [10]) : Line × Bytes)).flatMap (fun p => p.1.render ++ p.2)
      = kvs.flatMap fun e => e.1 ++ (b!" = " ++ (e.2 ++ (b!"\n"))) := by
    rw [List.flatMap_map]
    congr 1
    funext e
    simp [Line.render]
  rw [this]
  simp [Line.render]

theorem entries_wf {kvs : List (Bytes × Bytes)} (h : ∀ e ∈ kvs, CleanKey e.1 ∧ CleanValue e.2) :
    Text.WF (kvs.map fun e => (.entry [] e.1 [32] [32] e.2 [], [10])) := by
  have hl : ∀ e ∈ kvs, (Line.entry [] e.1 [32] [32] e.2 []).WF := by
    intro e he
    obtain ⟨⟨h1, h2, h3, h4⟩, h5, h6⟩ := h e he
    exact ⟨by simp [Blank], h1, h2, h3, h4, by simp [Blank], by simp [Blank], h5, h6, by simp [Blank], fun _ => rfl⟩
  induction kvs with
  | nil => trivial
  | cons e kvs ih =>
    have h1 := hl e (by simp)
    cases kvs with
    | nil => exact ⟨h1, .inl (.inl rfl)⟩
    | cons e2 kvs => exact ⟨h1, .inl rfl, ih (fun x hx => h x (by simp [hx])) (fun x hx => hl x (by simp [hx]))⟩

theorem licenseText_wf {p : Bytes} {kvs : List (Bytes × Bytes)} (hp : CleanSection p)
    (h : ∀ e ∈ kvs, CleanKey e.1 ∧ CleanValue e.2) : (licenseText p kvs).WF := by
  have h1 : (Line.header [] [] p [] []).WF :=
    ⟨by simp [Blank], by simp [IniSpace], hp.1, hp.2.1, hp.2.2, by simp [Blank], by simp [OneLine], fun _ => rfl⟩
  have h2 := entries_wf h
  cases kvs with
  | nil => exact ⟨h1, .inl (.inl rfl)⟩
  | cons e kvs => exact ⟨h1, .inl rfl, h2⟩

/-- What the parser finds in a written licence. -/
theorem items_writeLicense {p : Bytes} {kvs : List (Bytes × Bytes)} (hp : CleanSection p)
    (h : ∀ e ∈ kvs, CleanKey e.1 ∧ CleanValue e.2) :
    items (writeLicense p kvs) = .header p :: kvs.map (fun e => .entry e.1 e.2) := by
  rw [← licenseText_render, items_text (licenseText_wf hp h)]
  simp [licenseText, Text.items, List.filterMap_cons, Line.item, List.filterMap_map, Function.comp_def,
    List.filterMap_eq_map]

theorem entriesFrom_entries (p : Bytes) (kvs : List (Bytes × Bytes)) :
    entriesFrom p true (kvs.map fun e => .entry e.1 e.2) = kvs := by
  induction kvs with
  | nil => rfl
  | cons e kvs ih => simp [entriesFrom, ih]

/-- **C17**: a written licence is read back, also when keys repeat: the entries of the section are exactly the pairs. -/
theorem C17_entries {p : Bytes} {kvs : List (Bytes × Bytes)} (hp : CleanSection p)
    (h : ∀ e ∈ kvs, CleanKey e.1 ∧ CleanValue e.2) : entriesOf p (items (writeLicense p kvs)) = kvs := by
  rw [items_writeLicense hp h, entriesOf, entriesFrom, decide_sameCI, sameName_refl, entriesFrom_entries]

theorem kvOf_distinct (es : List (Bytes × Bytes)) (h : (es.map (·.1)).Pairwise (fun a b => ¬ SameCI a b)) : kvOf es = es := by
  induction es using snocInd with
  | h0 => rfl
  | h1 es e ih =>
    rw [List.map_append, List.pairwise_append] at h
    rw [kvOf_snoc, ih h.1]
    unfold setKey
    rw [if_neg]
    intro ha
    rw [List.any_eq_true] at ha
    obtain ⟨q, hq, hqe⟩ := ha
    exact h.2.2 q.1 (List.mem_map_of_mem hq) e.1 (by simp) ((sameName_iff _ _).mp hqe)

theorem find_distinct {kvs : List (Bytes × Bytes)} (hd : (kvs.map (·.1)).Pairwise (fun a b => ¬ SameCI a b))
    {e : Bytes × Bytes} (he : e ∈ kvs) : kvs.find? (fun q => sameName q.1 e.1) = some e := by
  induction kvs with
  | nil => simp at he
  | cons q kvs ih =>
    rw [List.find?_cons]
    rw [List.map_cons, List.pairwise_cons] at hd
    rcases List.mem_cons.mp he with rfl | he'
    · simp [sameName_refl]
    · have : sameName q.1 e.1 = false := by
        cases hs : sameName q.1 e.1 with
        | false => rfl
        | true => exact absurd ((sameName_iff _ _).mp hs) (hd.1 e.1 (List.mem_map_of_mem he'))
      rw [this]
      exact ih hd.2 he'

/-- **C17**: keys and values that are trimmed and free of line breaks (keys also non-empty, free of `=` and not starting
    with `;`, `#` or `[`), with keys distinct ignoring case, come back exactly. -/
theorem C17_round_trip {p : Bytes} {kvs : List (Bytes × Bytes)} (hp : CleanSection p)
    (h : ∀ e ∈ kvs, CleanKey e.1 ∧ CleanValue e.2) (hd : (kvs.map (·.1)).Pairwise (fun a b => ¬ SameCI a b)) :
    getAllKeys (load (writeLicense p kvs)) p = kvs.map (·.1)
      ∧ (∀ e ∈ kvs, getValue (load (writeLicense p kvs)) p e.1 = some e.2)
      ∧ getSectionSize (load (writeLicense p kvs)) p = kvs.length := by
  have hc : contents p (load (writeLicense p kvs)) = kvs := by
    rw [contents_load, C17_entries hp h]; exact kvOf_distinct kvs hd
  have hf : findSection p (load (writeLicense p kvs)) = some kvs := by
    have hsome : findSection p (load (writeLicense p kvs)) ≠ none := by
      unfold load
      rw [items_writeLicense hp h, build]
      have key : ∀ (is : List Item) cur d, findSection p d ≠ none → findSection p (build cur d is) ≠ none := by
        intro is
        induction is with
        | nil => intro cur d hd; cases cur <;> exact hd
        | cons i is ih =>
          intro cur d hd
          cases i with
          | header n =>
            rw [build]; apply ih; rw [findSection_addSection]; split <;> simp_all
          | badHeader => rw [build]; exact ih _ _ hd
          | entry k v =>
            cases cur with
            | none => rw [build]; exact ih _ _ hd
            | some s => rw [build]; apply ih; rw [findSection_addKey]; split <;> simp_all
      apply key
      rw [findSection_addSection, sameName_refl]; simp
    unfold contents at hc
    cases hs : findSection p (load (writeLicense p kvs)) with
    | none => exact absurd hs hsome
    | some x => rw [hs] at hc; simp at hc; rw [hc]
  refine ⟨by rw [getAllKeys_contents, hc], ?_, by simp [getSectionSize, hf]⟩
  intro e he
  rw [getValue_contents, hc]
  unfold findKey
  rw [find_distinct hd he]; rfl

/-- A concrete licence. -/
def sampleLicense : Bytes := b!"[MYAPP]\nlic_ver = 200\nvalid-to = 2030-01-01\nsig = QUJD\n"

theorem sampleLicense_eq : sampleLicense = writeLicense (b!"MYAPP")
    [(b!"lic_ver", b!"200"), (b!"valid-to", b!"2030-01-01"), (b!"sig", b!"QUJD")] := rfl

example : getValue (load sampleLicense) (b!"MYAPP") (b!"valid-to") = some (b!"2030-01-01") := by decide +kernel
example : getValue (load (b!"; c\n[myapp]  x\r\n A = 1\r\nfoo\n\n[other]\na=9\n[MyApp]\na=2\n=x\n#d\n")) (b!"MYAPP") (b!"a") = some (b!"2")
    ∧ getAllKeys (load (b!"[myapp]\n A = 1\n[other]\na=9\n[MyApp]\na=2")) (b!"MYAPP") = [b!"A"] := by
  constructor <;> decide +kernel

/-! ### C07: isolation -/

/-- **C07**: what is read for a feature depends only on the entries in the sections of that feature. -/
theorem C07_isolation {s t p : Bytes} (h : entriesOf p (items s) = entriesOf p (items t)) (k : Bytes) :
    getValue (load s) p k = getValue (load t) p k ∧ getAllKeys (load s) p = getAllKeys (load t) p
      ∧ (0 < getSectionSize (load s) p ↔ 0 < getSectionSize (load t) p) := by
  refine ⟨?_, ?_, ?_⟩
  · rw [C18_last_value, C18_last_value, h]
  · rw [getAllKeys_contents, getAllKeys_contents, contents_load, contents_load, h]
  · rw [C18_section_size, C18_section_size, h]

/-- Does a text start with a header (or is it empty)? -/
def StartsSection : List Item → Prop
  | [] => True
  | .header _ :: _ => True
  | .badHeader :: _ => True
  | .entry .. :: _ => False

theorem entriesFrom_start {p : Bytes} {is : List Item} (h : StartsSection is) (a b : Bool) :
    entriesFrom p a is = entriesFrom p b is := by
  cases is with
  | nil => cases a <;> cases b <;> rfl
  | cons i is => cases i with
    | header n => simp [entriesFrom]
    | badHeader => simp [entriesFrom]
    | entry k v => exact h.elim

theorem entriesFrom_append_false {p : Bytes} {block : List Item} (h : ∀ n, Item.header n ∈ block → ¬ SameCI n p)
    (is : List Item) : entriesFrom p false (block ++ is) = entriesFrom p false is := by
  induction block with
  | nil => rfl
  | cons i block ih =>
    have := ih (fun n hn => h n (by simp [hn]))
    cases i with
    | header n =>
      have hn : sameName n p = false := by
        cases hs : sameName n p with
        | false => rfl
        | true => exact absurd ((sameName_iff _ _).mp hs) (h n (by simp))
      simp [entriesFrom, decide_sameCI, hn, this]
    | badHeader => simp [entriesFrom, this]
    | entry k v => simp [entriesFrom, this]

theorem entriesFrom_insert {p : Bytes} (a block b : List Item) (ha : StartsSection block) (hb : StartsSection b)
    (hne : block ≠ []) (h : ∀ n, Item.header n ∈ block → ¬ SameCI n p) (cur : Bool) :
    entriesFrom p cur (a ++ (block ++ b)) = entriesFrom p cur (a ++ b) := by
  induction a generalizing cur with
  | nil =>
    have h1 : StartsSection (block ++ b) := by
      cases block with
      | nil => exact absurd rfl hne
      | cons i block => cases i <;> first | trivial | exact ha.elim
    rw [List.nil_append, List.nil_append, entriesFrom_start h1 cur false, entriesFrom_start hb cur false,
      entriesFrom_append_false h]
  | cons i a ih => cases i with
    | header n => simp [entriesFrom, ih]
    | badHeader => simp [entriesFrom, ih]
    | entry k v => cases cur <;> simp [entriesFrom, ih]

/-- **C07**: whole sections with other names, inserted anywhere between sections of a licence file, change nothing that is
    read for a feature; the inserted block may itself be anything that begins with a header. -/
theorem C07_foreign_sections {a block b : Text} {p : Bytes} (h1 : Text.WF (a ++ (block ++ b))) (h2 : Text.WF (a ++ b))
    (hs : StartsSection block.items) (hne : block.items ≠ []) (hb : StartsSection b.items)
    (hf : ∀ n, Item.header n ∈ block.items → ¬ SameCI n p) (k : Bytes) :
    getValue (load (Text.render (a ++ (block ++ b)))) p k = getValue (load (Text.render (a ++ b))) p k
      ∧ getAllKeys (load (Text.render (a ++ (block ++ b)))) p = getAllKeys (load (Text.render (a ++ b))) p
      ∧ (0 < getSectionSize (load (Text.render (a ++ (block ++ b)))) p ↔ 0 < getSectionSize (load (Text.render (a ++ b))) p) := by
  apply C07_isolation
  rw [items_text h1, items_text h2]
  simp only [Text.items, List.filterMap_append] at *
  exact entriesFrom_insert _ _ _ hs hb hne hf _

/-- **C07**: a text without a header for the feature has no section for it (the feature name not being empty). -/
theorem C07_no_section {s p : Bytes} (hp : p ≠ []) (h : ∀ n, Item.header n ∈ items s → ¬ SameCI n p) :
    ¬ 0 < getSectionSize (load s) p := by
  rw [C18_section_size, entriesOf]
  simp only [hp, decide_false, ne_eq, Decidable.not_not]
  have := entriesFrom_append_false h []
  rw [List.append_nil] at this
  rw [this]; rfl

/-! ### C20 -/

theorem itemsAux_length : ∀ n t, (itemsAux n t).length ≤ t.length := by
  intro n
  induction n with
  | zero => intro t; simp [itemsAux]
  | succ n ih =>
    intro t
    simp only [itemsAux]
    rcases step_progress t with h | h
    · rw [h]; simp
    · cases hs : step t with
      | done => simp
      | skip r => rw [hs] at h; simp only [Step.rest] at h; have := ih r; simp only; omega
      | badHeader r => rw [hs] at h; simp only [Step.rest] at h; have := ih r; simp only [List.length_cons]; omega
      | header a r => rw [hs] at h; simp only [Step.rest] at h; have := ih r; simp only [List.length_cons]; omega
      | entry a b r => rw [hs] at h; simp only [Step.rest] at h; have := ih r; simp only [List.length_cons]; omega

/-- **C20**: every round of the scanner that is not the last one leaves a shorter text. -/
theorem C20_progress (t : Bytes) : step t = .done ∨ (step t).rest.length < t.length := step_progress t

/-- **C20**: the bound on the number of rounds used by the model is never reached: any larger bound gives the same
    result. -/
theorem C20_bound_irrelevant (t : Bytes) (n : Nat) (h : t.length < n) : itemsAux n t = itemsAux (t.length + 1) t :=
  items_fuel n t h _ (by omega)

theorem length_takeWhile_le (p : UInt8 → Bool) (s : Bytes) : (s.takeWhile p).length ≤ s.length := by
  induction s with
  | nil => simp
  | cons c s ih => rw [List.takeWhile_cons]; split <;> simp; omega

/-- **C20**: at most one section or entry per byte is found. -/
theorem C20_at_most_one_item_per_byte (s : Bytes) : (items s).length ≤ s.length := by
  rw [items_eq_parse]
  exact Nat.le_trans (itemsAux_length _ _) (length_takeWhile_le _ s)

/-- **C20**: bytes from the first NUL on do not matter. -/
theorem C20_stops_at_nul (a b : Bytes) : load (a ++ 0 :: b) = load a := by
  have : cut (a ++ 0 :: b) = cut a := by
    unfold cut
    induction a with
    | nil => simp
    | cons c a ih => simp only [List.cons_append, List.takeWhile_cons, ih]
  unfold load
  rw [items_eq_parse, items_eq_parse, this]

end Licensecc.Ini
