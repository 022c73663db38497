import Verif.Model.IniFile
import Verif.Lemmas.IniTorn
/-!
# C78: files of INI objects

What is in the file at every moment of `SaveFile`, and what `LoadFile` makes of it.
-/
namespace Licensecc
open Ini hiding loadComment load parse step
open IniStore IniFile
open Spec.IniStore Spec.IniFile
set_option linter.unusedSimpArgs false

namespace IniFile

/-- The answers for a file with this content that nobody changes meanwhile. -/
def Reading.Of (content : Bytes) (r : Reading) : Prop :=
  r.opens = true ∧ r.seeks = true ∧ r.tell = content.length ∧ ∀ n, r.read n = content.take n

/-- Everything taken is given back, the last first. -/
def Balanced : List Event → Prop
  | [] => True
  | [.fopen, .fclose] => True
  | [.fopen, .new _, .delete, .fclose] => True
  | _ => False

end IniFile

/-- C78. Loading a file. A file that is there is loaded as its content would be (an empty one changes nothing); a failure of any call, or a file
    that becomes shorter meanwhile, leaves the object as it was and is reported; the stream is closed and the buffer released in every case, and the buffer has
    room for what is read. -/
theorem C78_load (o : Options) (copy : Bool) (r : Reading) (st : Store) :
    (∀ content, r.Of content → (loadFile o copy r st).1 = .ok ∧ (loadFile o copy r st).2.1 = if content = [] then st else loadEvery o copy content st)
    ∧ ((loadFile o copy r st).1 ≠ .ok → (loadFile o copy r st).2.1 = st)
    ∧ (r.opens = false ∨ r.seeks = false ∨ r.tell < 0 ∨ (r.read r.tell.toNat).length < r.tell.toNat → (loadFile o copy r st).1 = .file)
    ∧ Balanced (loadFile o copy r st).2.2
    ∧ (∀ n, .new n ∈ (loadFile o copy r st).2.2 → n = r.tell.toNat + 1) := by
  refine ⟨fun content h => ?_, ?_, ?_, ?_, ?_⟩
  · obtain ⟨h1, h2, h3, h4⟩ := h
    unfold loadFile loadStream
    cases content with
    | nil => simp [h1, h2, h3]
    | cons c t =>
      have hn : ¬ ((c :: t).length : Int) < 0 := by omega
      have h0 : ¬ ((c :: t).length : Int) = 0 := by simp; omega
      simp only [h1, h2, h3, h4, Bool.not_true, Bool.false_eq_true, if_false, hn, h0, Int.toNat_natCast, List.take_length, ne_eq, not_true_eq_false]
      simp
  · unfold loadFile loadStream
    intro h
    revert h
    split
    · simp
    · simp only
      split
      · simp
      · split
        · simp
        · split
          · simp
          · split <;> simp
  · intro h
    unfold loadFile loadStream
    split
    · rfl
    · rename_i h1
      simp only
      split
      · rfl
      · rename_i h2
        split
        · rfl
        · rename_i h3
          simp only [Bool.not_eq_true', Bool.not_eq_false] at h1 h2
          rcases h with h | h | h | h
          · rw [h1] at h; cases h
          · rw [h2] at h; cases h
          · exact absurd h h3
          · rw [if_neg (by intro h0; rw [h0] at h; simp at h), if_pos (by omega)]
  · unfold loadFile loadStream
    split
    · trivial
    · simp only
      split
      · trivial
      · split
        · trivial
        · split
          · trivial
          · split <;> trivial
  · intro n
    unfold loadFile loadStream
    split
    · simp
    · simp only
      split
      · simp
      · split
        · simp
        · split
          · simp
          · split <;> simp <;> exact fun h => h

namespace IniFile

/-- Between the steps of `SaveFile`: all bytes of the text that are not lost are in the file, in the stream, or still to come. -/
theorem steps_inv {text : Bytes} {old : Option Bytes} : ∀ {l : List Act} {s s' : Saving}, steps s l = some s' → (∀ n, .fail n ∉ l) →
    ((s.phase = .start ∨ s.phase = .done .file) → s.file = old) → (s.phase = .start ∨ s.phase = .done .file → s.left = text ∧ s.buffer = []) →
    ((s.phase = .writing ∨ s.phase = .done .ok) → ∃ f, s.file = some f ∧ f ++ s.buffer ++ s.left = text ∧ (s.phase = .done .ok → s.buffer = [] ∧ s.left = [])) →
    ((s'.phase = .start ∨ s'.phase = .done .file) → s'.file = old)
    ∧ ((s'.phase = .writing ∨ s'.phase = .done .ok) → ∃ f, s'.file = some f ∧ f ++ s'.buffer ++ s'.left = text
      ∧ (s'.phase = .done .ok → s'.buffer = [] ∧ s'.left = [])) := by
  intro l
  induction l with
  | nil =>
    intro s s' h _ h1 _ h3
    cases h
    exact ⟨h1, h3⟩
  | cons a l ih =>
    intro s s' h hf h1 h2 h3
    rw [steps] at h
    obtain ⟨s1, hs1, h⟩ := Option.bind_eq_some_iff.mp h
    have hf' : ∀ n, Act.fail n ∉ l := fun n hn => hf n (by simp [hn])
    cases a with
    | refuse =>
      simp only [step] at hs1
      split at hs1
      · rename_i hp
        cases hs1
        exact ih h hf' (fun _ => h1 (.inl hp)) (fun _ => h2 (.inl hp)) (by simp)
      · cases hs1
    | fopen =>
      simp only [step] at hs1
      split at hs1
      · rename_i hp
        cases hs1
        obtain ⟨e1, e2⟩ := h2 (.inl hp)
        exact ih h hf' (by simp) (by simp) (fun _ => ⟨[], rfl, by simp [e1, e2], by simp⟩)
      · cases hs1
    | put n =>
      simp only [step] at hs1
      split at hs1
      · rename_i hp
        cases hs1
        obtain ⟨f, e1, e2, _⟩ := h3 (.inl hp.1)
        refine ih h hf' (by simp [hp.1]) (by simp [hp.1]) (fun _ => ⟨f, e1, ?_, by simp [hp.1]⟩)
        simp only [List.append_assoc, List.take_append_drop]
        rw [← e2]; simp
      · cases hs1
    | write n =>
      simp only [step] at hs1
      split at hs1
      · rename_i hp
        cases hs1
        obtain ⟨f, e1, e2, _⟩ := h3 (.inl hp.1)
        refine ih h hf' (by simp [hp.1]) (by simp [hp.1]) (fun _ => ⟨f ++ s.buffer.take n, by simp [e1], ?_, by simp [hp.1]⟩)
        rw [← e2]
        simp only [List.append_assoc]
        rw [← List.append_assoc (s.buffer.take n), List.take_append_drop]
      · cases hs1
    | fail n => exact absurd (by simp) (hf n)
    | fclose =>
      simp only [step] at hs1
      split at hs1
      · rename_i hp
        cases hs1
        obtain ⟨f, e1, e2, _⟩ := h3 (.inl hp.1)
        exact ih h hf' (by simp) (by simp) (fun _ => ⟨f, e1, e2, fun _ => ⟨hp.2.2, hp.2.1⟩⟩)
      · cases hs1

end IniFile

/-- C78. Saving to a file. If no write fails the file holds, at every moment, what it held before (the file was not opened yet, or cannot be) or the beginning of
    the text that `Save` gives; and all of it when `SaveFile` returns SI_OK. -/
theorem C78_save (o : Options) (sig : Bool) (st : Store) (old : Option Bytes) {l : List Act} {s : Saving} (h : steps (begin_ o sig st old) l = some s)
    (hf : ∀ n, .fail n ∉ l) :
    (s.phase = .start ∨ s.phase = .done .file → s.file = old)
    ∧ (s.phase = .writing → ∃ f, s.file = some f ∧ f <+: save o sig st)
    ∧ (s.phase = .done .ok → s.file = some (save o sig st)) := by
  obtain ⟨h1, h2⟩ := steps_inv (text := save o sig st) (old := old) h hf (fun _ => rfl) (fun _ => ⟨rfl, rfl⟩) (by simp [begin_])
  refine ⟨h1, fun hp => ?_, fun hp => ?_⟩
  · obtain ⟨f, e1, e2, _⟩ := h2 (.inl hp)
    exact ⟨f, e1, by rw [← e2, List.append_assoc]; exact List.prefix_append _ _⟩
  · obtain ⟨f, e1, e2, e3⟩ := h2 (.inr hp)
    obtain ⟨e4, e5⟩ := e3 hp
    rw [e4, e5, List.append_nil, List.append_nil] at e2
    rw [e1, e2]

/-- C78. Finding: SI_OK says nothing of what is in the file. For every object and every length there is a run of `SaveFile`, one in which the disk is full after that
    many bytes, that returns SI_OK and leaves just those. -/
theorem C78_silent (o : Options) (sig : Bool) (st : Store) (old : Option Bytes) (n : Nat) (hn : n < (save o sig st).length) :
    ∃ l s, steps (begin_ o sig st old) l = some s ∧ s.phase = .done .ok ∧ s.file = some ((save o sig st).take n) := by
  refine ⟨[.fopen, .put (save o sig st).length, .write n, .fail ((save o sig st).length - n), .fclose],
    ⟨.done .ok, [], [], some ((save o sig st).take n)⟩, ?_, rfl, rfl⟩
  unfold begin_
  generalize save o sig st = t at hn ⊢
  have h1 : t.drop (n + (t.length - n)) = [] := by rw [show n + (t.length - n) = t.length by omega, List.drop_length]
  simp only [steps, step, Option.bind_some, if_true, List.nil_append, Nat.le_refl, List.drop_length, List.take_length, Option.map_some,
    List.length_drop, and_self, Nat.le_of_lt hn, List.drop_drop, h1, show 0 < t.length - n by omega]

namespace IniFile

/-- What is found in a text cut short, and the comment of the file. -/
theorem findFile_cut {o : Options} (hm : o.multiLine = false) (copy : Bool) (p u : Bytes) :
    let a := findFileComment {} p
    let b := findFileComment {} (p ++ u)
    IniTorn.Torn (findEvery o copy (a.2.length + 1) (.named []) none a.2) (findEvery o copy (b.2.length + 1) (.named []) none b.2)
      ∧ (a.1 = b.1 ∨ (findEvery o copy (a.2.length + 1) (.named []) none a.2 = [] ∧ (a.1 = none ∨ ∃ c c', a.1 = some c ∧ b.1 = some c' ∧ c <+: c'))) := by
  intro a b
  have hev : ∀ t, t.dropWhile isSp = [] → findEvery o copy (t.length + 1) (.named []) none t = [] := fun t ht => IniTorn.every_space o copy (.named []) none ht
  have hcut : ∀ t, IniTorn.Torn (findEvery o copy (t.length + 1) (.named []) none t) (findEvery o copy ((t ++ u).length + 1) (.named []) none (t ++ u)) :=
    fun t => IniTorn.every_cut hm copy u _ t (Nat.lt_succ_self _) (.named []) (.named []) none rfl
  by_cases hp : p = []
  · subst hp
    have ha : a = (none, []) := rfl
    rw [ha]
    exact ⟨.inl List.nil_prefix, .inr ⟨rfl, .inl rfl⟩⟩
  cases hs : startsComment p with
  | false =>
    have hs2 : startsComment (p ++ u) = false := by
      cases p with
      | nil => exact absurd rfl hp
      | cons c t => exact hs
    have ha : a = (none, p) := by show findFileComment {} p = _; unfold findFileComment; simp [hs]
    have hb : b = (none, p ++ u) := by show findFileComment {} (p ++ u) = _; unfold findFileComment; simp [hs2]
    rw [ha, hb]
    exact ⟨hcut p, .inl rfl⟩
  | true =>
    have hs2 := IniTorn.startsComment_more u hs
    have ha : a = (some (ctext false [] p).1, (ctext false [] p).2) := by
      show findFileComment {} p = _; unfold findFileComment; simp only [hs, if_true, commentText_eq_ctext false hs]
    have hb : b = (some (ctext false [] (p ++ u)).1, (ctext false [] (p ++ u)).2) := by
      show findFileComment {} (p ++ u) = _; unfold findFileComment; simp only [hs2, if_true, commentText_eq_ctext false hs2]
    rw [ha, hb]
    rcases IniTorn.ctext_cut false u _ [] p (Nat.lt_succ_self _) with h1 | h1
    · have := hev _ h1
      simp only
      rw [this]
      exact ⟨.inl List.nil_prefix, .inr ⟨rfl, .inr ⟨_, _, rfl, rfl, IniTorn.ctext_first u _ [] p (Nat.lt_succ_self _)⟩⟩⟩
    · rw [h1]
      exact ⟨hcut _, .inl rfl⟩

end IniFile

/-- C78. A file that ends early. Whatever the history of an object, if its contents can be expressed in a file (with one line per value), then loading the
    first bytes of the saved text, however many, gives the first sections, keys and values; of the last section the first keys, of the last key the first
    values, of the last value perhaps only the beginning. Nothing is in the wrong place and nothing is there that was not saved. -/
theorem C78_torn (o : Options) (hm : o.multiLine = false) (sig copy : Bool) {st : Store} (h : Reachable o st) (hd : DocOk o st.fileComment (contents o st))
    {p : Bytes} (hp : p <+: save o sig st) :
    CutDoc (contents o (loadEvery o copy p {})) (contents o st)
    ∧ ((loadEvery o copy p {}).fileComment = st.fileComment
      ∨ (contents o (loadEvery o copy p {}) = [] ∧ ((loadEvery o copy p {}).fileComment = none
        ∨ ∃ c c', (loadEvery o copy p {}).fileComment = some c ∧ st.fileComment = some c' ∧ c <+: c'))) := by
  rw [contents_eq h.inv] at hd ⊢
  have hw := docWF h.inv
  have hn : ∀ s ∈ doc st, s.name = [] → s.comment = none ∧ s.keys ≠ [] := fun s hs hs' => (hd.nameless s hs hs').2
  -- from what is found to the document
  have key : ∀ fc part, IniTorn.Torn part ((doc st).flatMap sectionFound) →
      CutDoc (contents o (addAll o part { fileComment := fc })) (doc st) ∧ (part = [] → contents o (addAll o part { fileComment := fc }) = []) := by
    intro fc part ht
    obtain ⟨d', rfl, h1, h2⟩ := IniTorn.torn_doc (fun s hs hs' => (hn s hs hs').2) ht
    have hi : Inv o ({ fileComment := fc } : Store) := (Inv.empty o).of_sections fc
    have e : doc ({ fileComment := fc } : Store) = [] := rfl
    have : contents o (addAll o (d'.flatMap sectionFound) { fileComment := fc }) = d' := by
      rw [contents_eq (inv_addAll _ hi), doc_addAll _ hi, e, IniTorn.fold_cut hw hn h1 h2]
    rw [this]
    refine ⟨h1, fun h0 => ?_⟩
    rw [h0] at this
    exact this.symm.trans (contents_eq hi)
  rw [save_eq h.inv (noNul_of_docOk h.inv hd)] at hp
  -- the text of the file
  have hnul := fileLines_no_nul hd
  have hfind := findFileComment_save hd hw
  have hall : ∀ n, findEvery o copy ((render o (docLines o st.fileComment.isNone (doc st) ++ [[]])).length + 1 + n) (.named []) none
      (render o (docLines o st.fileComment.isNone (doc st) ++ [[]])) = (doc st).flatMap sectionFound := fun n => by
    refine findEvery_of_findAll _ _ _ _ _ _ _ ?_
    rw [findAll_eq_found (by omega), found_doc hd hw.names]
  -- a part of the text behind the mark
  have main : ∀ q, q <+: render o (fileLines o st.fileComment (doc st)) → dropMark o p = q →
      CutDoc (contents o (loadEvery o copy p {})) (doc st)
      ∧ ((loadEvery o copy p {}).fileComment = st.fileComment
        ∨ (contents o (loadEvery o copy p {}) = [] ∧ ((loadEvery o copy p {}).fileComment = none
          ∨ ∃ c c', (loadEvery o copy p {}).fileComment = some c ∧ st.fileComment = some c' ∧ c <+: c'))) := by
    intro q hq hpq
    obtain ⟨u, hu⟩ := hq
    have hq0 : 0 ∉ q := fun h0 => hnul (by rw [← hu]; simp [h0])
    unfold loadEvery
    rw [hpq, cut_of_no_nul hq0]
    obtain ⟨t1, t2⟩ := findFile_cut hm copy q u
    rw [hu, hfind] at t1 t2
    simp only at t1 t2 ⊢
    rw [show (∀ a : Nat, a + 1 = a + 1 + 0) from fun _ => rfl, hall 0] at t1
    obtain ⟨k1, k2⟩ := key (findFileComment {} q).1 _ t1
    refine ⟨k1, ?_⟩
    rw [addAll_fileComment]
    rcases t2 with t2 | ⟨t2, t3⟩
    · exact .inl t2
    · exact .inr ⟨k2 t2, t3⟩
  by_cases hmark : (o.utf8 && sig) = true
  · rw [if_pos hmark] at hp
    by_cases hlen : 3 ≤ p.length
    · match p, hlen, hp with
      | a :: b :: c :: q, _, hp =>
        simp only [List.cons_append, List.nil_append, List.cons_prefix_cons] at hp
        obtain ⟨rfl, rfl, rfl, hp⟩ := hp
        refine main q hp ?_
        unfold dropMark
        simp only [Bool.and_eq_true] at hmark
        simp [hmark.1]
    · have hfound : dropMark o p = p ∧ findFileComment {} (cut p) = (none, p) ∧ findEvery o copy (p.length + 1) (.named []) none p = [] := by
        match p, hlen, hp with
        | [], _, _ => exact ⟨by unfold dropMark; simp, rfl, rfl⟩
        | [a], _, hp =>
          simp only [List.cons_append, List.nil_append, List.cons_prefix_cons, List.nil_prefix, and_true] at hp
          subst hp
          exact ⟨by unfold dropMark; simp, rfl, rfl⟩
        | [a, b], _, hp =>
          simp only [List.cons_append, List.nil_append, List.cons_prefix_cons, List.nil_prefix, and_true] at hp
          obtain ⟨rfl, rfl⟩ := hp
          exact ⟨by unfold dropMark; simp, rfl, rfl⟩
        | a :: b :: c :: q, hlen, _ => simp at hlen
      obtain ⟨h1, h2, h3⟩ := hfound
      have hl : loadEvery o copy p {} = {} := by
        unfold loadEvery
        rw [h1, h2]
        simp only
        rw [h3]; rfl
      rw [hl]
      have e : contents o ({} : Store) = [] := contents_eq (Inv.empty o)
      rw [e]
      exact ⟨.inl List.nil_prefix, .inr ⟨rfl, .inl rfl⟩⟩
  · rw [if_neg hmark, List.nil_append] at hp
    refine main p hp ?_
    have hdm := dropMark_save hd hw false
    simp only [Bool.and_false, Bool.false_eq_true, if_false, List.nil_append] at hdm
    unfold dropMark at hdm ⊢
    split
    · rename_i hc
      exfalso
      simp only [Bool.and_eq_true, beq_iff_eq] at hc
      obtain ⟨u, hu⟩ := hp
      have hl : 3 ≤ p.length := by
        have := congrArg List.length hc.2
        simp only [List.length_take, List.length_cons, List.length_nil] at this
        omega
      have hc2 : (render o (fileLines o st.fileComment (doc st))).take 3 = [0xEF, 0xBB, 0xBF] := by
        rw [← hu, List.take_append_of_le_length hl, hc.2]
      rw [if_pos (by simp [hc.1, hc2])] at hdm
      have := congrArg List.length hdm
      rw [List.length_drop] at this
      have h3 : 3 ≤ (render o (fileLines o st.fileComment (doc st))).length := by rw [← hu, List.length_append]; omega
      omega
    · rfl

namespace IniFile

open Classical in
theorem find_prefix {α : Type} {f : α → Bool} {a b : List α} (h : a <+: b) : a.find? f = none ∨ a.find? f = b.find? f := by
  obtain ⟨r, rfl⟩ := h
  rw [List.find?_append]
  cases a.find? f with
  | none => exact .inl rfl
  | some x => exact .inr rfl

theorem values_cut {part whole : Doc} (h : CutDoc part whole) (s k : Bytes) : Doc.values part s k = [] ∨ CutValues (Doc.values part s k) (Doc.values whole s k) := by
  classical
  have hkey : ∀ {a b : DocSection}, CutKeys a.keys b.keys → (((a.key? k).map (·.values)).getD [] = [])
      ∨ CutValues (((a.key? k).map (·.values)).getD []) (((b.key? k).map (·.values)).getD []) := by
    intro a b hk
    unfold DocSection.key?
    rcases hk with hk | ⟨before, x, vs, rest, h1, h2, _, h3⟩
    · rcases find_prefix (f := fun e => decide (Spec.SameCI e.name k)) hk with h | h
      · rw [h]; exact .inl rfl
      · rw [h]; exact .inr (.inl (List.prefix_refl _))
    · rw [h1, h2, List.find?_append, List.find?_append]
      cases before.find? (fun e => decide (Spec.SameCI e.name k)) with
      | some y => exact .inr (.inl (List.prefix_refl _))
      | none =>
        rw [Option.none_or, Option.none_or, List.find?_cons, List.find?_cons, List.find?_nil]
        cases hd : decide (Spec.SameCI x.name k) with
        | true => simp only; exact .inr h3
        | false => exact .inl rfl
  unfold Doc.values Doc.section?
  rcases h with h | ⟨before, x, ks, rest, h1, h2, h3⟩
  · rcases find_prefix (f := fun e => decide (Spec.SameCI e.name s)) h with h | h
    · rw [h]; exact .inl rfl
    · rw [h]; exact .inr (.inl (List.prefix_refl _))
  · rw [h1, h2, List.find?_append, List.find?_append]
    cases before.find? (fun e => decide (Spec.SameCI e.name s)) with
    | some y => exact .inr (.inl (List.prefix_refl _))
    | none =>
      rw [Option.none_or, Option.none_or, List.find?_cons, List.find?_cons, List.find?_nil]
      cases hd : decide (Spec.SameCI x.name s) with
      | true => exact hkey (a := ⟨x.name, x.comment, ks⟩) (b := x) h3
      | false => exact .inl rfl

/-- Loading into a new object keeps the invariant. -/
theorem inv_loadEvery (o : Options) (copy : Bool) (p : Bytes) : Inv o (loadEvery o copy p {}) := inv_addAll _ ((Inv.empty o).of_sections _)

end IniFile

/-- C78. The same seen from one key: the values read from a file that ends early are the first of those that were saved, the last one perhaps cut. So with
    one value per key each one is the one saved, or its beginning, or not there. -/
theorem C78_values (o : Options) (hm : o.multiLine = false) (sig copy : Bool) {st : Store} (h : Reachable o st) (hd : DocOk o st.fileComment (contents o st))
    {p : Bytes} (hp : p <+: save o sig st) (s k : Bytes) :
    let part := (getAllValues o (loadEvery o copy p {}) s k).map (·.value)
    let whole := (getAllValues o st s k).map (·.value)
    part <+: whole ∨ ∃ before v v' rest, whole = before ++ v :: rest ∧ part = before ++ [v'] ∧ v' <+: v := by
  intro part whole
  have hc := (C78_torn o hm sig copy h hd hp).1
  have e1 : part = (Doc.values (contents o (loadEvery o copy p {})) s k).map (·.1) := values_contents (inv_loadEvery o copy p) s k
  have e2 : whole = (Doc.values (contents o st) s k).map (·.1) := values_contents h.inv s k
  rw [e1, e2]
  rcases values_cut hc s k with h1 | h1 | ⟨before, v, v', c, rest, h1, h2, h3⟩
  · rw [h1]; exact .inl List.nil_prefix
  · exact .inl (h1.map _)
  · rw [h1, h2]
    exact .inr ⟨before.map (·.1), v, v', rest.map (·.1), by simp, by simp, h3⟩

namespace IniFile

/-- What the reader of the library makes of the beginning of a text without malformed headers. -/
theorem build_cut {o : Options} (hm : o.multiLine = false) (copy : Bool) (u : Bytes) : ∀ (n : Nat) (p : Bytes), p.length < n → ∀ sect c l,
    found o sect c (p ++ u) = some l → ∀ d, Ini.build (some sect) d (Ini.parse p) = (IniParse.every o copy (.named sect) c p).foldl eraseAdd d := by
  intro n
  induction n with
  | zero => intro p h; omega
  | succ n ih =>
    intro p hn sect c l hl d
    have hnil : ∀ place c, IniParse.every o copy place c [] = [] := fun place c => IniTorn.every_space o copy place c rfl
    by_cases h0 : p.dropWhile isSp = []
    · rw [IniTorn.every_space o copy _ c h0, ← parse_dropSpace, h0]; rfl
    have ht := (IniTorn.dropWhile_more u h0).1
    have hd := length_dropWhile_le isSp p
    rw [found_eq, ht] at hl
    rw [IniParse.every_eq o copy _ c p]
    cases hs : startsComment (p.dropWhile isSp) with
    | true =>
      rw [if_pos (IniTorn.startsComment_more u hs), commentText_eq_ctext true (IniTorn.startsComment_more u hs)] at hl
      rw [if_pos rfl, commentText_eq_ctext true hs]
      have hp := IniParse.comment_progress hs
      rw [commentText_eq_ctext true hs] at hp
      have hpar : Ini.parse p = Ini.parse (ctext true [] (p.dropWhile isSp)).2 := by
        rw [← commentText_eq_ctext true hs, commentText_snd, parse_loadComment _ _ (Nat.le_refl _), parse_dropSpace]
      rw [hpar]
      rcases IniTorn.ctext_cut true u _ [] _ (Nat.lt_succ_self (p.dropWhile isSp).length) with h1 | h1
      · rw [IniTorn.every_space _ _ _ _ h1, ← parse_dropSpace, h1]; rfl
      · rw [h1] at hl
        exact ih _ (by omega) _ _ _ hl d
    | false =>
      have hs2 : startsComment (p.dropWhile isSp ++ u) = false := by
        cases hq : p.dropWhile isSp with
        | nil => exact absurd hq h0
        | cons c t => rw [hq] at hs; exact hs
      rw [hs2, if_neg Bool.false_ne_true, ← ht, step_dropSpace] at hl
      rw [if_neg Bool.false_ne_true, parse_eq]
      have hprog := step_progress (p.dropWhile isSp)
      rw [step_dropSpace] at hprog
      rcases IniTorn.step_cut p u hs with ⟨h1, h2⟩ | h1 | h1 | h1 | ⟨nm, r, h1, h2⟩ | ⟨k, v, v', r, h1, h2, h3⟩
      · rw [h2] at hl
        cases hst : Ini.step p with
        | done => exact absurd hst h1
        | skip r =>
          rw [hst] at hl hprog
          have hl' : r.length < (p.dropWhile isSp).length := hprog.resolve_left (by intro h; cases h)
          exact ih _ (by omega) _ _ _ hl d
        | badHeader r => rw [hst] at hl; cases hl
        | header a r =>
          rw [hst] at hl hprog
          have hl' : r.length < (p.dropWhile isSp).length := hprog.resolve_left (by intro h; cases h)
          obtain ⟨l', hl, _⟩ := Option.map_eq_some_iff.mp hl
          exact ih _ (by omega) _ _ _ hl _
        | entry k v r =>
          rw [hst] at hl hprog
          have hl' : r.length < (p.dropWhile isSp).length := hprog.resolve_left (by intro h; cases h)
          simp only [hm, IniTorn.more, Bool.false_and, Bool.false_eq_true, if_false] at hl ⊢
          obtain ⟨l', hl, _⟩ := Option.map_eq_some_iff.mp hl
          exact ih _ (by omega) _ _ _ hl _
      · rw [h1]; rfl
      · rw [h1]; simp only [hnil]; rfl
      · rw [h1]; simp only [hnil]; rfl
      · rw [h1]; simp only [hnil]; rfl
      · rw [h1]
        simp only [hm, hnil, Bool.false_and, Bool.false_eq_true, if_false]; rfl

end IniFile

namespace IniFile

theorem load_cut {o : Options} (ho : o.multiKey = false ∧ o.multiLine = false ∧ o.utf8 = false) (copy : Bool) {p u : Bytes} (h0 : 0 ∉ p ++ u) {st' : Store}
    (hl : load o (p ++ u) {} = some st') : Ini.load p = erase (doc (loadEvery o copy p {})) := by
  have hp0 : 0 ∉ p := fun h => h0 (by simp [h])
  have hi0 : ∀ fc, Inv o ({ fileComment := fc } : Store) := fun fc => (Inv.empty o).of_sections fc
  have hd : ∀ t, dropMark o t = t := fun t => by unfold dropMark; rw [ho.2.2]; rfl
  have hc : ∀ t, (findFileComment {} t).2 = Ini.loadComment false t.length t := by
    intro t
    unfold findFileComment
    simp only
    split
    · exact commentText_snd _ _ _ _
    · rename_i hs
      cases hu : t.length with
      | zero => rfl
      | succ n =>
        rw [Ini.loadComment, if_neg hs]
        simp
  unfold load at hl
  obtain ⟨l, hl, _⟩ := Option.map_eq_some_iff.mp hl
  rw [hd, cut_of_no_nul h0, findAll_eq_found (Nat.lt_succ_self _)] at hl
  unfold loadEvery
  rw [hd, cut_of_no_nul hp0]
  simp only
  rw [doc_addAll _ (hi0 _), ho.1, erase_fold]
  unfold Ini.load Ini.items
  rw [cut_of_no_nul hp0, ← hc p]
  have hcase : (findFileComment {} p).2.dropWhile isSp = [] ∨ (findFileComment {} (p ++ u)).2 = (findFileComment {} p).2 ++ u := by
    by_cases hp : p = []
    · subst hp; exact .inl rfl
    cases hs : startsComment p with
    | false =>
      have hs2 : startsComment (p ++ u) = false := by
        cases p with
        | nil => exact absurd rfl hp
        | cons c t => exact hs
      refine .inr ?_
      unfold findFileComment
      simp [hs, hs2]
    | true =>
      have hs2 := IniTorn.startsComment_more u hs
      have e : ∀ t, startsComment t = true → (findFileComment {} t).2 = (ctext false [] t).2 := by
        intro t ht
        unfold findFileComment
        simp only [ht, if_true, commentText_eq_ctext false ht]
      rw [e p hs, e _ hs2]
      rcases IniTorn.ctext_cut false u _ [] p (Nat.lt_succ_self _) with h1 | h1
      · exact .inl h1
      · exact .inr (by rw [h1])
  rcases hcase with h | h
  · have e1 := IniTorn.every_space o copy (.named []) none h
    unfold IniParse.every at e1
    rw [e1]
    show Ini.build _ _ (Ini.parse _) = _
    rw [← parse_dropSpace, h]; rfl
  · rw [h] at hl
    exact build_cut ho.2.1 copy u _ _ (Nat.lt_succ_self _) _ _ _ hl []

end IniFile

/-- C78. A licence that ends early, as the library reads it: an issuer builds an object by writable changes, with one value per key and one line per value, and
    saves it without the byte order mark; then in the first bytes of the file, however many, the library finds under a key the value that was set last, or its
    beginning, or none. -/
theorem C78_licence (o : Options) (hk : o.multiKey = false) (hm : o.multiLine = false) (sig : Bool) (hs : o.utf8 = false ∨ sig = false) (h : List Change)
    (hc : ∀ c ∈ h, ChangeOk o c) {p : Bytes} (hp : p <+: save o sig (run o h)) (s k : Bytes) :
    Ini.getValue (Ini.load p) s k = none ∨ ∃ v v', (valuesOf false s k h).head? = some v ∧ Ini.getValue (Ini.load p) s k = some v' ∧ v' <+: v := by
  have hsave : save o sig (run o h) = save { o with utf8 := false } false (run { o with utf8 := false } h) := by
    rw [run_utf8 o false h]
    have : (o.utf8 && sig) = false := by
      rcases hs with hs | hs
      · rw [hs]; rfl
      · rw [hs, Bool.and_false]
    unfold save
    simp only [this, Bool.false_and, saveSections_utf8 o false]
    rfl
  rw [hsave] at hp
  have hc' : ∀ c ∈ h, ChangeOk { o with utf8 := false } c := fun c hc' => by
    have := hc c hc'
    cases c <;> exact this
  have hr := Reachable.run { o with utf8 := false } h
  have hd : DocOk { o with utf8 := false } (run { o with utf8 := false } h).fileComment (contents { o with utf8 := false } (run { o with utf8 := false } h)) := by
    rw [run_fileComment, C74_contents]; exact (writable_history hc').docOk
  obtain ⟨st', h1, h2, _⟩ := C75_round_trip _ false hr hd
  have htorn := C78_values { o with utf8 := false } hm false true hr hd hp s k
  have hd2 := hd
  rw [contents_eq hr.inv] at hd2
  have h0 : 0 ∉ save { o with utf8 := false } false (run { o with utf8 := false } h) := by
    rw [save_eq hr.inv (noNul_of_docOk hr.inv hd2)]
    simpa using fileLines_no_nul hd2
  obtain ⟨u, hu⟩ := hp
  rw [← hu] at h0 h1
  have hi := inv_loadEvery { o with utf8 := false } true p
  have hg : Ini.getValue (Ini.load p) s k = ((getAllValues { o with utf8 := false } (loadEvery { o with utf8 := false } true p {}) s k).map (·.value)).head? := by
    rw [load_cut (o := { o with utf8 := false }) ⟨hk, hm, rfl⟩ true h0 h1, getValue_erase (docWF hi).some, values_contents hi, contents_eq hi, List.head?_map]
  have hw : (getAllValues { o with utf8 := false } (run { o with utf8 := false } h) s k).map (·.value) = valuesOf false s k h := by
    rw [C74_values]
    exact congrArg (fun m => valuesOf m s k h) hk
  rw [hg]
  rw [hw] at htorn
  rcases htorn with ⟨r, hr⟩ | ⟨before, v, v', rest, e1, e2, e3⟩
  · cases hq : (getAllValues { o with utf8 := false } (loadEvery { o with utf8 := false } true p {}) s k).map (·.value) with
    | nil => exact .inl rfl
    | cons v l => exact .inr ⟨v, v, by rw [← hr, hq]; rfl, rfl, List.prefix_refl _⟩
  · rw [e1, e2]
    cases before with
    | nil => exact .inr ⟨v, v', rfl, rfl, e3⟩
    | cons x l => exact .inr ⟨x, x, rfl, rfl, List.prefix_refl _⟩

/-- C78. A crash. If the program ends, at any moment, while it saves, and no write has failed, the file is the old one or can be loaded and gives the beginning of
    what was to be saved; all of it if `SaveFile` had returned. -/
theorem C78_crash (o : Options) (hm : o.multiLine = false) (sig : Bool) {st : Store} (h : Reachable o st) (hd : DocOk o st.fileComment (contents o st))
    (old : Option Bytes) {l : List Act} {s : Saving} (hs : steps (begin_ o sig st old) l = some s) (hf : ∀ n, .fail n ∉ l) :
    s.file = old ∨ ∃ f, s.file = some f ∧ ∀ r copy, r.Of f → (loadFile o copy r {}).1 = .ok
      ∧ CutDoc (contents o (loadFile o copy r {}).2.1) (contents o st)
      ∧ (s.phase = .done .ok → contents o (loadFile o copy r {}).2.1 = contents o st) := by
  obtain ⟨h1, h2, h3⟩ := C78_save o sig st old hs hf
  have main : ∀ f, s.file = some f → f <+: save o sig st → (s.phase = .done .ok → f = save o sig st) →
      s.file = old ∨ ∃ f, s.file = some f ∧ ∀ r copy, r.Of f → (loadFile o copy r {}).1 = .ok
      ∧ CutDoc (contents o (loadFile o copy r {}).2.1) (contents o st)
      ∧ (s.phase = .done .ok → contents o (loadFile o copy r {}).2.1 = contents o st) := by
    intro f e1 e2 e3
    refine .inr ⟨f, e1, fun r copy hr => ?_⟩
    obtain ⟨g1, g2⟩ := (C78_load o copy r {}).1 f hr
    have hl : (loadFile o copy r {}).2.1 = loadEvery o copy f {} := by
      rw [g2]
      split
      · rename_i h0
        subst h0
        have : dropMark o [] = [] := by unfold dropMark; split <;> rfl
        unfold loadEvery
        rw [this]; rfl
      · rfl
    rw [hl]
    refine ⟨g1, (C78_torn o hm sig copy h hd e2).1, fun hp => ?_⟩
    obtain ⟨st', k1, k2, _⟩ := C75_round_trip o sig h hd
    rw [e3 hp, C75_every o copy _ _ k1, k2]
  have all : ∀ ph, s.phase = ph → s.file = old ∨ ∃ f, s.file = some f ∧ f <+: save o sig st ∧ (s.phase = .done .ok → f = save o sig st) := by
    intro ph hp
    match ph, hp with
    | .start, hp => exact .inl (h1 (.inl hp))
    | .writing, hp =>
      obtain ⟨f, e1, e2⟩ := h2 hp
      exact .inr ⟨f, e1, e2, fun h => by rw [hp] at h; cases h⟩
    | .done .file, hp => exact .inl (h1 (.inr hp))
    | .done .ok, hp => exact .inr ⟨_, h3 hp, List.prefix_refl _, fun _ => rfl⟩
  rcases all _ rfl with h | ⟨f, e1, e2, e3⟩
  · exact .inl h
  · exact main f e1 e2 e3

/-! ## Concrete cases -/

/-- a licence, one line per value -/
def IniFile.sample : List Change :=
  [.set b!"PROD" b!"sig" b!"QUJDRA==" none false, .set b!"prod" b!"valid-to" b!"20301231" none false, .set b!"PROD" b!"lic_ver" b!"200" none false]

theorem IniFile.sample_ok (o : Options) (hm : o.multiLine = false) : ∀ c ∈ sample, ChangeOk o c := by
  have plain : ∀ v : Bytes, (v.all fun c => c != 10 && c != 13 && c != 0 && c != 32 && c != 9) = true → Plain v := by
    intro v hv
    rw [List.all_eq_true] at hv
    refine ⟨fun c hc => ?_, fun c hc => ?_, fun c hc => ?_⟩
    · have := hv c hc; simp at this; grind
    · have := hv c (List.mem_of_mem_head? hc); simp at this; grind
    · have := hv c (List.mem_of_getLast? hc); simp at this; grind
  have value : ∀ v : Bytes, Plain v → ValueOk o v := by
    intro v h1
    unfold ValueOk
    rw [hm]
    exact h1
  intro c hc'
  unfold sample at hc'
  simp only [List.mem_cons, List.not_mem_nil, or_false] at hc'
  rcases hc' with rfl | rfl | rfl
  · exact ⟨⟨plain _ (by decide +kernel), by decide +kernel⟩, by decide +kernel, ⟨plain _ (by decide +kernel), by decide +kernel, 115, _, rfl, by decide⟩,
      value _ (plain _ (by decide +kernel)), by simp⟩
  · exact ⟨⟨plain _ (by decide +kernel), by decide +kernel⟩, by decide +kernel, ⟨plain _ (by decide +kernel), by decide +kernel, 118, _, rfl, by decide⟩,
      value _ (plain _ (by decide +kernel)), by simp⟩
  · exact ⟨⟨plain _ (by decide +kernel), by decide +kernel⟩, by decide +kernel, ⟨plain _ (by decide +kernel), by decide +kernel, 108, _, rfl, by decide⟩,
      value _ (plain _ (by decide +kernel)), by simp⟩

/-- the hypotheses of `C78_torn`, `C78_values` and `C78_crash` hold for it -/
theorem IniFile.sample_doc : Reachable {} (run {} sample) ∧ DocOk {} (run {} sample).fileComment (contents {} (run {} sample)) :=
  ⟨.run {} sample, by rw [run_fileComment, C74_contents]; exact (writable_history (sample_ok {} rfl)).docOk⟩

/-- the text -/
example : save {} false (run {} IniFile.sample) = b!"[PROD]\nlic_ver = 200\nvalid-to = 20301231\nsig = QUJDRA==\n\n" := by decide +kernel

/-- its first 37 bytes: the date is cut, and it is another date -/
example : (save {} false (run {} IniFile.sample)).take 37 = b!"[PROD]\nlic_ver = 200\nvalid-to = 20301"
    ∧ Ini.getValue (Ini.load ((save {} false (run {} IniFile.sample)).take 37)) b!"prod" b!"valid-to" = some b!"20301"
    ∧ Ini.getValue (Ini.load ((save {} false (run {} IniFile.sample)).take 37)) b!"prod" b!"lic_ver" = some b!"200"
    ∧ Ini.getValue (Ini.load ((save {} false (run {} IniFile.sample)).take 37)) b!"prod" b!"sig" = none := by decide +kernel

/-- and in general -/
example (n : Nat) := C78_licence {} rfl rfl false (.inl rfl) IniFile.sample (IniFile.sample_ok {} rfl) (List.take_prefix n _) b!"prod" b!"valid-to"

/-- a header cut short: the section is not there -/
example : contents {} (loadEvery {} false b!"[a]\nk = v\n[PRO" {}) = contents {} (loadEvery {} false b!"[a]\nk = v\n" {}) := by
  rw [contents_eq (IniFile.inv_loadEvery ..), contents_eq (IniFile.inv_loadEvery ..)]; decide +kernel

/-- saving in small pieces, and a crash in between -/
example : (steps ⟨.start, b!"abcdef", [], some b!"old"⟩ [.fopen, .put 4, .write 3, .put 2]).map (·.file) = some (some b!"abc")
    ∧ (steps ⟨.start, b!"abcdef", [], some b!"old"⟩ [.fopen, .put 4, .write 3, .put 2, .write 3, .fclose]) = some ⟨.done .ok, [], [], some b!"abcdef"⟩
    ∧ (steps ⟨.start, b!"abcdef", [], some b!"old"⟩ [.refuse]).map (·.file) = some (some b!"old")
    ∧ (steps ⟨.start, b!"abcdef", [], some b!"old"⟩ [.fopen]).map (·.file) = some (some [])
    ∧ (steps ⟨.start, b!"abcdef", [], some b!"old"⟩ [.fopen, .put 6, .fclose]) = none
    ∧ (steps ⟨.start, b!"abcdef", [], some b!"old"⟩ [.fopen, .put 6, .write 2, .fail 4, .fclose]) = some ⟨.done .ok, [], [], some b!"ab"⟩ := by decide +kernel

/-- answers for a file -/
def IniFile.reading (content : Bytes) : Reading := ⟨true, true, content.length, content.take⟩

example (content : Bytes) : (IniFile.reading content).Of content := ⟨rfl, rfl, rfl, fun _ => rfl⟩

/-- a file that became shorter -/
example : (loadFile {} false ⟨true, true, 9, fun n => (b!"[a]\n").take n⟩ {}).1 = .file
    ∧ (loadFile {} false ⟨true, true, 9, fun n => (b!"[a]\n").take n⟩ {}).2.2 = [.fopen, .new 10, .delete, .fclose] := by decide +kernel

end Licensecc
