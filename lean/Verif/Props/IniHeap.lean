import Verif.Lemmas.IniHeapReplace
import Verif.Lemmas.IniHeapTight
import Verif.Props.IniStore
import Verif.Spec.IniHeap
/-!
# C77: the memory of INI objects

Objects with pointers (Model/IniHeap) after any history of calls whose arguments are strings of the caller's.
-/
namespace Licensecc
open IniHeap Spec.IniHeap
open IniStore (Options Store)
open Spec.IniStore (Change)

/-- A call on the object of texts; `copy` if it keeps a text. -/
def IniStore.act (o : Options) (copy : Bool) : Action → Store → Bool × Store
  | .change c, st => IniStore.change o c st
  | .load t, st => (true, IniStore.loadEvery o copy t st)
  | .reset, st => (true, { order := st.order })

/-- The object of texts after a history of calls, the newest first, each with the settings in force. -/
def IniStore.after : List (Options × Action) → Store
  | [] => {}
  | (o, a) :: h => (IniStore.act o (keepsText (h.map (·.2))) a (IniStore.after h)).2

namespace IniHeap

/-- A call on the object with pointers, with strings of the caller's. -/
def act (o : Options) : Action → Obj → Except Fault (Bool × Obj)
  | .change (.set s k v c force), x => addEntry o (.caller s) (some (.caller k, .caller v)) (c.map .caller) force true x
  | .change (.addSection s c), x => addEntry o (.caller s) none (c.map .caller) false true x
  | .change (.delete s k removeEmpty), x => delete (.caller s) (k.map .caller) removeEmpty x
  | .load t, x => (load o t x).map fun y => (true, y)
  | .reset, x => (reset x).map fun y => (true, y)

/-- The object with pointers after a history of calls, the newest first, each with the settings in force. -/
def after : List (Options × Action) → Except Fault Obj
  | [] => .ok {}
  | (o, a) :: h => (after h).bind fun x => (act o a x).map (·.2)

/-- What holds after every history. -/
def Good (x : Obj) : Prop := ObjOk x ∧ BlocksOk x.mem

theorem Good.empty : Good {} :=
  ⟨⟨⟨rfl, .nil, by simp, .nil, by simp⟩, by simp [Obj.ptrs], by simp [Obj.ptrs, ids], IniStore.Inv.empty _⟩, rfl⟩

/-- What a call may release. -/
def gone (o : Options) (x : Obj) : Action → List Nat
  | .change (.set s k _ _ force) => releasedObj o x force s k
  | .change (.addSection _ _) => []
  | .change (.delete s k _) => deletedObj x s k
  | .load _ => []
  | .reset => []

theorem map_caller {m : Mem} (c : Option Bytes) : (c.map Ptr.caller).map (tx m) = c := by
  cases c <;> rfl

theorem caller_text {m : Mem} {c : Option Bytes} : ∀ p, c.map Ptr.caller = some p → ∃ t, m.text p = some t := by
  intro p hp
  obtain ⟨t, _, rfl⟩ := Option.map_eq_some_iff.mp hp
  exact ⟨t, rfl⟩

theorem caller_not_held {x : Obj} (hx : ObjOk x) {t : Bytes} {p : Ptr} (hp : p ∈ x.ptrs) : p ≠ .caller t := (hx.held p hp).1 t

theorem caller_not_string {x : Obj} (hx : ObjOk x) {tk : Bytes} (t : Bytes) : ∀ e ∈ x.sections, ∀ q ∈ named x.mem tk e.keys, Ptr.caller t ∉ q.strings :=
  fun _ he _ hq hp => caller_not_held hx (mem_ptrs_key he (List.mem_filter.mp hq).1 (List.mem_append_left _ hp)) rfl

theorem BlocksOk.frame {D : List Nat} {m m' : Mem} (h : BlocksOk m) (hf : Frame D m m') : BlocksOk m' := by
  unfold BlocksOk at *
  rw [hf.blocks, hf.data, h]

theorem act_ok (o : Options) {x : Obj} (hx : Good x) (a : Action) :
    ∃ y, act o a x = .ok ((IniStore.act o x.mem.data.isSome a (view x)).1, y) ∧ view y = (IniStore.act o x.mem.data.isSome a (view x)).2 ∧ Good y
      ∧ (∀ h, keepsText h = x.mem.data.isSome → keepsText (a :: h) = y.mem.data.isSome) ∧ (a ≠ .reset → Later (gone o x a) x y) := by
  obtain ⟨hx, hb⟩ := hx
  cases a with
  | change c =>
    cases c with
    | set s k v c force =>
      obtain ⟨b, y, h1, h2, h3⟩ := addEntry_ok (o := o) hx (s := .caller s) (k := .caller k) (v := .caller v) (c := c.map .caller) (force := force) (copy := true)
        rfl rfl rfl caller_text (by simp) fun _ _ e he _ q hq => ⟨caller_not_string hx k e he q hq, caller_not_string hx v e he q hq⟩
      rw [map_caller] at h2
      have hr' : IniStore.act o x.mem.data.isSome (.change (.set s k v c force)) (view x) = (b, view y) := h2.symm
      rw [hr']
      exact ⟨y, h1, rfl, ⟨h3.ok, hb.frame h3.frame⟩, fun _ e => e.trans (congrArg Option.isSome h3.frame.data.symm), fun _ => h3.later⟩
    | addSection s c =>
      obtain ⟨b, y, h1, h2, h3⟩ := addEntry_none (o := o) hx (s := .caller s) (c := c.map .caller) (force := false) (copy := true) rfl caller_text (by simp)
      rw [map_caller] at h2
      have hr' : IniStore.act o x.mem.data.isSome (.change (.addSection s c)) (view x) = (b, view y) := h2.symm
      rw [hr']
      exact ⟨y, h1, rfl, ⟨h3.ok, hb.frame h3.frame⟩, fun _ e => e.trans (congrArg Option.isSome h3.frame.data.symm), fun _ => h3.later⟩
    | delete s k re =>
      obtain ⟨b, y, h1, h2, h3, _⟩ := delete_ok true hx (s := .caller s) (k := k.map .caller) (removeEmpty := re) rfl caller_text (by
        intro p hp e he _ q hq
        obtain ⟨t, _, rfl⟩ := Option.map_eq_some_iff.mp hp
        exact caller_not_string hx t e he q hq)
      rw [map_caller] at h2 h3
      have hr' : IniStore.act o x.mem.data.isSome (.change (.delete s k re)) (view x) = (b, view y) := h2.symm
      rw [hr']
      exact ⟨y, h1, rfl, ⟨h3.ok, hb.frame h3.frame⟩, fun _ e => e.trans (congrArg Option.isSome h3.frame.data.symm), fun _ => h3.later⟩
  | load t =>
    obtain ⟨y, h1, h2, h3, h4, h6, h5⟩ := load_ok (o := o) hx hb t
    refine ⟨y, ?_, h2, ⟨h3, h4⟩, fun _ e => by rw [h6, ← e]; rfl, fun _ => h5⟩
    simp only [act, h1]
    rfl
  | reset =>
    refine ⟨⟨⟨[], [], x.mem.next, [], none⟩, none, [], x.order⟩, ?_, ?_, ?_, fun _ _ => rfl, fun h => absurd rfl h⟩
    · simp only [act, reset_ok hx hb]
      rfl
    · rfl
    · exact ⟨⟨⟨rfl, .nil, by simp, .nil, by simp⟩, by simp [Obj.ptrs], by simp [Obj.ptrs, ids], ⟨.nil, by simp [view], .nil, by simp [view]⟩⟩, rfl⟩

theorem after_ok : ∀ (h : List (Options × Action)), ∃ x, after h = .ok x ∧ view x = IniStore.after h ∧ Good x ∧ keepsText (h.map (·.2)) = x.mem.data.isSome
  | [] => ⟨{}, rfl, rfl, Good.empty, rfl⟩
  | (o, a) :: h => by
    obtain ⟨x, h1, h2, h3, h3'⟩ := after_ok h
    obtain ⟨y, h4, h5, h6, h7, _⟩ := act_ok o h3 a
    refine ⟨y, ?_, by rw [h5, h2, ← h3']; rfl, h6, h7 _ h3'⟩
    simp only [after, h1, Except.bind, h4]
    rfl

theorem after_good {h : List (Options × Action)} {x : Obj} (hx : after h = .ok x) : view x = IniStore.after h ∧ Good x := by
  obtain ⟨y, h1, h2, h3, _⟩ := after_ok h
  rw [hx] at h1
  cases h1
  exact ⟨h2, h3⟩

/-! ## One string -/

/-- The string is no name, and as a value it belongs to this section and key. -/
def Safe (i : Nat) (s k : Bytes) (x : Obj) : Prop :=
  ∀ e ∈ x.sections, e.name ≠ .own i ∧ ∀ q ∈ e.keys, q.name ≠ .own i
    ∧ (q.value = .own i → Ini.sameName (tx x.mem e.name) s = true ∧ Ini.sameName (tx x.mem q.name) k = true)

theorem tx_later {D : List Nat} {x y : Obj} (hx : ObjOk x) (h : Later D x y) {p : Ptr} (h1 : Held x.mem p) (h2 : Held y.mem p) : tx y.mem p = tx x.mem p := by
  cases p with
  | caller t => exact absurd rfl (h1.1 t)
  | block b t =>
    have e1 := h1.text
    have e2 := h2.text
    unfold Mem.text at e1 e2
    simp only at e1 e2
    split at e1
    · split at e2
      · exact (Option.some.inj e2).symm.trans (Option.some.inj e1)
      · cases e2
    · cases e1
  | own j =>
    obtain ⟨t, ht⟩ := h1.2
    obtain ⟨u, hu⟩ := h2.2
    have hj := text_bound hx.mem ht
    have := h.back j u hj hu
    rw [tx_eq this, tx_eq hu]

theorem Safe.later {i : Nat} {s k : Bytes} {x y : Obj} (hx : ObjOk x) (hy : ObjOk y) {D : List Nat} (h : Later D x y) (hi : i < x.mem.next)
    (hs : Safe i s k x) : Safe i s k y := by
  have hnew : ∀ p, New x.mem.next p → p ≠ .own i := fun p hp hh => by have := hp i hh; omega
  intro e he
  rcases h.origin e he with ⟨e0, he0, hn, hq⟩ | ⟨hn, hq⟩
  · obtain ⟨s1, s2⟩ := hs e0 he0
    refine ⟨by rw [hn]; exact s1, fun q hqe => ?_⟩
    rcases hq q hqe with ⟨q0, hq0, hqn, hqv⟩ | ⟨hqn, hqv⟩
    · obtain ⟨s3, s4⟩ := s2 q0 hq0
      refine ⟨by rw [hqn]; exact s3, fun hv => ?_⟩
      rcases hqv with hqv | hqv
      · rw [hqv] at hv
        obtain ⟨s5, s6⟩ := s4 hv
        have t1 : tx y.mem e.name = tx x.mem e0.name := by
          rw [hn]
          exact tx_later hx h (hx.held _ (mem_ptrs_name he0)) (hn ▸ hy.held _ (mem_ptrs_name he))
        have t2 : tx y.mem q.name = tx x.mem q0.name := by
          rw [hqn]
          exact tx_later hx h (hx.held _ (mem_ptrs_key he0 hq0 (by simp [Key.ptrs, Key.strings])))
            (hqn ▸ hy.held _ (mem_ptrs_key he hqe (by simp [Key.ptrs, Key.strings])))
        rw [t1, t2]
        exact ⟨s5, s6⟩
      · exact absurd hv (hnew _ hqv)
    · exact ⟨hnew _ hqn, fun hv => absurd hv (hnew _ hqv)⟩
  · exact ⟨hnew _ hn, fun q hqe => ⟨hnew _ (hq q hqe).1, fun hv => absurd hv (hnew _ (hq q hqe).2)⟩⟩

theorem same_both {a b c : Bytes} (h1 : Ini.sameName a b = true) (h2 : Ini.sameName a c = true) : Spec.SameCI b c := by
  rw [IniStore.sameCI_iff, ← Ini.sameName_trans h1]
  exact h2

/-- A call that does not release the values of the key does not release the string. -/
theorem Safe.stays {o : Options} {i : Nat} {s k : Bytes} {x : Obj} (hs : Safe i s k x) {a : Action} (ha : ¬ Releases o.multiKey s k a) : i ∉ gone o x a := by
  intro hi
  cases a with
  | load t => cases hi
  | reset => exact ha trivial
  | change c =>
    cases c with
    | addSection _ _ => cases hi
    | set s' k' v c force =>
      simp only [gone, releasedObj] at hi
      split at hi
      · rename_i hmf
        simp only [Bool.and_eq_true] at hmf
        rw [mem_ids, List.mem_flatMap] at hi
        obtain ⟨q, hq, hp⟩ := hi
        rw [List.mem_flatMap] at hq
        obtain ⟨e, he, hq⟩ := hq
        obtain ⟨he, hse⟩ := List.mem_filter.mp he
        obtain ⟨hq, hsq⟩ := List.mem_filter.mp hq
        obtain ⟨_, s2⟩ := hs e he
        obtain ⟨s3, s4⟩ := s2 q hq
        simp only [Key.strings, List.mem_cons, List.not_mem_nil, or_false] at hp
        rcases hp with hp | hp
        · exact s3 hp.symm
        · obtain ⟨h1, h2⟩ := s4 hp.symm
          exact ha ⟨hmf.1, hmf.2, same_both hse h1, same_both hsq h2⟩
      · cases hi
    | delete s' k' re =>
      simp only [gone, deletedObj] at hi
      rw [mem_ids, List.mem_flatMap] at hi
      obtain ⟨e, he, hp⟩ := hi
      obtain ⟨he, hse⟩ := List.mem_filter.mp he
      obtain ⟨s1, s2⟩ := hs e he
      rcases List.mem_cons.mp hp with h0 | h0
      · exact s1 h0.symm
      · rw [List.mem_flatMap] at h0
        obtain ⟨q, hq, h3⟩ := h0
        cases k' with
        | none =>
          obtain ⟨s3, s4⟩ := s2 q hq
          simp only [Key.strings, List.mem_cons, List.not_mem_nil, or_false] at h3
          rcases h3 with h3 | h3
          · exact s3 h3.symm
          · exact ha (same_both hse (s4 h3.symm).1)
        | some k' =>
          obtain ⟨hq, hsq⟩ := List.mem_filter.mp hq
          obtain ⟨s3, s4⟩ := s2 q hq
          simp only [Key.strings, List.mem_cons, List.not_mem_nil, or_false] at h3
          rcases h3 with h3 | h3
          · exact s3 h3.symm
          · obtain ⟨h1, h2⟩ := s4 h3.symm
            exact ha ⟨same_both hse h1, same_both hsq h2⟩

/-- A value is stored once. -/
theorem Safe.value {x : Obj} (hx : ObjOk x) {e : Sect} (he : e ∈ x.sections) {A : List Key} {q : Key} {B : List Key} (hk : e.keys = A ++ q :: B)
    {i : Nat} (hq : q.value = .own i) {s k : Bytes} (h1 : Ini.sameName (tx x.mem e.name) s = true) (h2 : Ini.sameName (tx x.mem q.name) k = true) : Safe i s k x := by
  obtain ⟨lo, after, hsec⟩ := List.append_of_mem he
  have hp := ptrs_perm x hsec
  have hnd := (ids_perm hp).nodup_iff.mp hx.nodup
  rw [hk, List.flatMap_append, List.flatMap_cons] at hnd
  -- everything but this value
  have hrest : Ptr.own i ∉ (x.fileComment.toList ++ (lo.flatMap Sect.ptrs ++ ((e.name :: e.comment.toList) ++ after.flatMap Sect.ptrs)))
      ++ (A.flatMap Key.ptrs ++ ((q.name :: q.comment.toList) ++ B.flatMap Key.ptrs)) := by
    have hperm : ((x.fileComment.toList ++ (lo.flatMap Sect.ptrs ++ ((e.name :: e.comment.toList) ++ after.flatMap Sect.ptrs)))
        ++ (A.flatMap Key.ptrs ++ (q.ptrs ++ B.flatMap Key.ptrs))).Perm (q.value :: ((x.fileComment.toList ++ (lo.flatMap Sect.ptrs ++ ((e.name :: e.comment.toList) ++ after.flatMap Sect.ptrs)))
        ++ (A.flatMap Key.ptrs ++ ((q.name :: q.comment.toList) ++ B.flatMap Key.ptrs)))) := by
      refine List.Perm.trans (List.Perm.append_left _ (List.Perm.append_left _ (List.Perm.append_right _
        (List.Perm.swap _ _ _ : q.ptrs.Perm (q.value :: (q.name :: q.comment.toList)))))) ?_
      · simp only [List.cons_append]
        refine List.Perm.trans (List.Perm.append_left _ List.perm_middle) List.perm_middle
    have := (ids_perm hperm).nodup_iff.mp hnd
    rw [hq, ids_cons] at this
    intro hmem
    rw [List.nodup_append] at this
    exact this.2.2 i (by simp [ids, Ptr.id?]) i (mem_ids.mpr hmem) rfl
  simp only [List.mem_append, List.mem_flatMap, List.mem_cons] at hrest
  intro e' he'
  have hsect : ∀ e', e' ∈ lo ∨ e' ∈ after → Ptr.own i ∉ e'.ptrs := by
    rintro e' (h | h) hp
    · exact hrest (.inl (.inr (.inl ⟨e', h, hp⟩)))
    · exact hrest (.inl (.inr (.inr (.inr ⟨e', h, hp⟩))))
  rw [hsec] at he'
  rcases List.mem_append.mp he' with h | h
  · have := hsect e' (.inl h)
    refine ⟨fun hh => this (by rw [← hh]; simp [Sect.ptrs]), fun q' hq' => ⟨fun hh => this ?_, fun hh => absurd ?_ this⟩⟩
    · rw [← hh]; exact List.mem_append_right _ (List.mem_flatMap.mpr ⟨q', hq', by simp [Key.ptrs, Key.strings]⟩)
    · rw [← hh]; exact List.mem_append_right _ (List.mem_flatMap.mpr ⟨q', hq', by simp [Key.ptrs, Key.strings]⟩)
  · rcases List.mem_cons.mp h with rfl | h
    · refine ⟨fun hh => hrest (.inl (.inr (.inr (.inl (.inl hh.symm))))), fun q' hq' => ?_⟩
      rw [hk] at hq'
      rcases List.mem_append.mp hq' with h | h
      · exact ⟨fun hh => hrest (.inr (.inl ⟨q', h, by rw [← hh]; simp [Key.ptrs, Key.strings]⟩)),
          fun hh => absurd (.inr (.inl ⟨q', h, by rw [← hh]; simp [Key.ptrs, Key.strings]⟩)) hrest⟩
      · rcases List.mem_cons.mp h with rfl | h
        · exact ⟨fun hh => hrest (.inr (.inr (.inl (.inl hh.symm)))), fun _ => ⟨h1, h2⟩⟩
        · exact ⟨fun hh => hrest (.inr (.inr (.inr ⟨q', h, by rw [← hh]; simp [Key.ptrs, Key.strings]⟩))),
            fun hh => absurd (.inr (.inr (.inr ⟨q', h, by rw [← hh]; simp [Key.ptrs, Key.strings]⟩))) hrest⟩
    · have := hsect e' (.inr h)
      refine ⟨fun hh => this (by rw [← hh]; simp [Sect.ptrs]), fun q' hq' => ⟨fun hh => this ?_, fun hh => absurd ?_ this⟩⟩
      · rw [← hh]; exact List.mem_append_right _ (List.mem_flatMap.mpr ⟨q', hq', by simp [Key.ptrs, Key.strings]⟩)
      · rw [← hh]; exact List.mem_append_right _ (List.mem_flatMap.mpr ⟨q', hq', by simp [Key.ptrs, Key.strings]⟩)

theorem sameName_of_both {a b c : Bytes} (h1 : Ini.sameName a c = true) (h2 : Spec.SameCI b c) : Ini.sameName a b = true := by
  rw [Ini.sameName_trans h1]
  exact IniStore.same_symm (IniStore.sameCI_iff.mp h2)

theorem named_same {m : Mem} {a b : Bytes} (h : Ini.sameName a b = true) (keys : List Key) : named m a keys = named m b keys := by
  unfold named
  refine List.filter_congr fun q _ => ?_
  rw [Ini.sameName_comm, Ini.sameName_trans h, Ini.sameName_comm]

theorem getValue_found {x : Obj} (hx : ObjOk x) {s k : Bytes} {p : Ptr} (hp : getValue x (.caller s) (.caller k) = .ok (some p)) :
    ∃ e ∈ x.sections, ∃ A q B, e.keys = A ++ q :: B ∧ q.value = p ∧ Ini.sameName (tx x.mem e.name) s = true ∧ Ini.sameName (tx x.mem q.name) k = true := by
  obtain ⟨r, h1, _, h3⟩ := getValue_ok (o := {}) hx (s := .caller s) (k := .caller k) rfl rfl
  rw [hp] at h1
  cases h1
  obtain ⟨e, he, A, q, B, h4, h5, h6, h7, _⟩ := h3 p rfl
  exact ⟨e, he, A, q, B, h4, h5, h6, h7⟩

/-- The string survives calls that do not release it. -/
theorem stable {s k : Bytes} {p : Ptr} {t : Bytes} {h : List (Options × Action)} {x : Obj} (hx : after h = .ok x)
    (hp : getValue x (.caller s) (.caller k) = .ok (some p)) (ht : x.mem.text p = some t) : ∀ (l : List (Options × Action)) {y : Obj},
    after (l ++ h) = .ok y → (∀ a ∈ l, ¬ Releases a.1.multiKey s k a.2) →
    y.mem.text p = some t ∧ ∀ i, p = .own i → Safe i s k y
  | [], y, hy, _ => by
    rw [List.nil_append] at hy
    rw [hx] at hy
    cases hy
    refine ⟨ht, fun i hi => ?_⟩
    have hg := (after_good hx).2.1
    obtain ⟨e, he, A, q, B, h4, h5, h6, h7⟩ := getValue_found hg hp
    exact Safe.value hg he h4 (h5.trans hi) h6 h7
  | (o, a) :: l, y, hy, hl => by
    rw [List.cons_append] at hy
    obtain ⟨_, hgy⟩ := after_good hy
    obtain ⟨z, hz, _, hgz, _⟩ := after_ok (l ++ h)
    obtain ⟨h1, h2⟩ := stable hx hp ht l hz fun a ha => hl a (by simp [ha])
    obtain ⟨y', e1, _, _, _, hlat⟩ := act_ok o hgz a
    simp only [after, hz, Except.bind, e1] at hy
    cases hy
    have ha := hl (o, a) (by simp)
    have hlat := hlat (by rintro rfl; exact ha trivial)
    refine ⟨hlat.text p t h1 fun n hn hh => (h2 n hh).stays ha hn, fun i hi => ?_⟩
    refine (h2 i hi).later hgz.1 hgy.1 hlat ?_
    rw [hi] at h1
    exact text_bound hgz.1.mem h1

end IniHeap

theorem getValue_head (o : Options) (st : Store) (s k : Bytes) :
    (IniStore.getValue o st s k).1 = ((IniStore.keysNamed k (IniStore.keysOf st s)).map (·.value)).head? := by
  unfold IniStore.getValue IniStore.keysOf
  cases IniStore.findSection st s with
  | none => rfl
  | some e =>
    simp only [Option.map_some, Option.getD_some]
    rw [List.head?_map]

/-! ## The claims -/

/-- C77. Whatever calls are made, with strings of the caller's: nothing is read after its release and nothing is released twice, the object refers only to
    strings that are allocated and never to one of the caller's, it contains what the same calls give on texts, and what is allocated is what `Reset`
    will release: the strings in `m_strings` and the block in `m_pData`. -/
theorem C77_no_fault (h : List (Options × Action)) :
    ∃ x, IniHeap.after h = .ok x ∧ view x = IniStore.after h ∧ (∀ p ∈ x.ptrs, (∃ t, IniHeap.read x.mem p = .ok t) ∧ ∀ t, p ≠ .caller t)
      ∧ x.mem.heap.map (·.1) = x.mem.strings ∧ x.mem.blocks = x.mem.data.toList := by
  obtain ⟨x, h1, h2, ⟨h3, h4⟩, _⟩ := after_ok h
  refine ⟨x, h1, h2, fun p hp => ⟨?_, (h3.held p hp).1⟩, h3.mem.strings.symm, h4⟩
  exact ⟨_, read_ok (h3.held p hp).text⟩

/-- C77. No two names, values or comments share a string that `CopyString` made. -/
theorem C77_separate (h : List (Options × Action)) {x : Obj} (hx : IniHeap.after h = .ok x) :
    (ids x.ptrs).Nodup := (after_good hx).2.1.nodup

/-- C77. Every call also reports what it does on texts. -/
theorem C77_result (h : List (Options × Action)) {x : Obj} (hx : IniHeap.after h = .ok x) (o : Options) (a : Action) :
    ∃ y, IniHeap.act o a x = .ok ((IniStore.act o (keepsText (h.map (·.2))) a (IniStore.after h)).1, y) ∧ view y = (IniStore.act o (keepsText (h.map (·.2))) a (IniStore.after h)).2 := by
  obtain ⟨h1, h2⟩ := after_good hx
  obtain ⟨y, h3, h4, _⟩ := act_ok o h2 a
  obtain ⟨x', h5, _, _, h6⟩ := after_ok h
  rw [hx] at h5
  cases h5
  rw [h1, ← h6] at h3 h4
  exact ⟨y, h3, h4⟩

/-- C77. After `Reset`, and so after the destructor, nothing is allocated. -/
theorem C77_reset (h : List (Options × Action)) {x : Obj} (hx : IniHeap.after h = .ok x) :
    ∃ y, IniHeap.reset x = .ok y ∧ y.mem.heap = [] ∧ y.mem.blocks = [] ∧ y.sections = [] ∧ y.fileComment = none := by
  obtain ⟨_, h2, h3⟩ := after_good hx
  exact ⟨_, reset_ok h2 h3, rfl, rfl, rfl, rfl⟩

/-- C77. `GetValue` gives the address of a string with the value. -/
theorem C77_value (o : Options) (h : List (Options × Action)) {x : Obj} (hx : IniHeap.after h = .ok x) (s k : Bytes) :
    ∃ r, IniHeap.getValue x (.caller s) (.caller k) = .ok r ∧ r.map (IniHeap.read x.mem) = (IniStore.getValue o (IniStore.after h) s k).1.map .ok := by
  obtain ⟨h1, h2, _⟩ := after_good hx
  obtain ⟨r, h3, h4, h5⟩ := getValue_ok h2 (s := .caller s) (k := .caller k) rfl rfl
  refine ⟨r, h3, ?_⟩
  rw [← h1, ← h4]
  cases r with
  | none => rfl
  | some p =>
    obtain ⟨e, he, A, q, B, h6, h7, _⟩ := h5 p rfl
    have hq : q ∈ e.keys := by rw [h6]; simp
    simp only [Option.map_some]
    rw [read_ok (h2.held p (mem_ptrs_key he hq (by rw [← h7]; simp [Key.ptrs, Key.strings]))).text]

/-- C77. The string that `GetValue` gave stays as it is through any calls that do not delete the key, its section or everything, and that do not replace the value
    where several values are allowed. -/
theorem C77_pointer_stable (h later : List (Options × Action)) {x y : Obj}
    (hx : IniHeap.after h = .ok x) (hy : IniHeap.after (later ++ h) = .ok y) {s k : Bytes} {p : Ptr} {t : Bytes}
    (hp : IniHeap.getValue x (.caller s) (.caller k) = .ok (some p)) (ht : IniHeap.read x.mem p = .ok t)
    (hl : ∀ a ∈ later, ¬ Releases a.1.multiKey s k a.2) : IniHeap.read y.mem p = .ok t := by
  have ht' : x.mem.text p = some t := by
    unfold IniHeap.read at ht
    split at ht
    · cases ht; assumption
    · cases ht
  exact read_ok (stable hx hp ht' later hy hl).1

/-- C77. And those calls end its life, unless it lies in the text that was loaded first: that one lasts until `Reset`. -/
theorem C77_pointer_released (h : List (Options × Action)) (o : Options) (a : Action) {x y : Obj}
    (hx : IniHeap.after h = .ok x) (hy : IniHeap.after ((o, a) :: h) = .ok y) {s k : Bytes} {p : Ptr}
    (hp : IniHeap.getValue x (.caller s) (.caller k) = .ok (some p)) (ha : Releases o.multiKey s k a) (hown : (∃ i, p = .own i) ∨ a = .reset) :
    IniHeap.read y.mem p = .error .useAfterFree := by
  obtain ⟨_, hg, hgb⟩ := after_good hx
  obtain ⟨_, hgy, _⟩ := after_good hy
  obtain ⟨e, he, A, q, B, h4, h5, h6, h7⟩ := getValue_found hg hp
  have hqe : q ∈ e.keys := by rw [h4]; simp
  have hnone : ∀ i, p = .own i → i ∉ y.mem.strings → IniHeap.read y.mem p = .error .useAfterFree := by
    intro i hi hn
    unfold IniHeap.read
    rw [hi, text_none hgy.mem hn]
  simp only [IniHeap.after, hx, Except.bind] at hy
  cases a with
  | load t => cases ha
  | reset =>
    simp only [IniHeap.act, reset_ok hg hgb] at hy
    cases hy
    have hheld := hg.held p (mem_ptrs_key he hqe (by rw [← h5]; simp [Key.ptrs, Key.strings]))
    unfold IniHeap.read
    cases p with
    | caller t => exact absurd rfl (hheld.1 t)
    | block b t => rfl
    | own i => rfl
  | change c =>
    obtain ⟨i, rfl⟩ : ∃ i, p = .own i := by
      rcases hown with h | h
      · exact h
      · cases h
    cases c with
    | addSection _ _ => cases ha
    | set s' k' v c force =>
      obtain ⟨hmk, rfl, hs, hk⟩ := ha
      have hsame := sameName_of_both h6 hs
      have hq : q ∈ named x.mem k' e.keys := List.mem_filter.mpr ⟨hqe, sameName_of_both h7 hk⟩
      cases hadd : addEntry o (.caller s') (some (.caller k', .caller v)) (c.map .caller) true true x with
      | error f => simp only [IniHeap.act, hadd] at hy; cases hy
      | ok r =>
        simp only [IniHeap.act, hadd] at hy
        cases hy
        refine hnone i rfl ?_
        refine (addEntry_replace hmk hg (s := .caller s') (k := .caller k') (c := c.map .caller) rfl rfl caller_text he hsame
          (by intro hh; rw [hh] at hq; cases hq) (caller_not_string hg k' e he) ?_).1 _ _ _ hadd
        rw [mem_ids, List.mem_flatMap]
        exact ⟨q, hq, by simp [Key.strings, h5]⟩
    | delete s' k' re =>
      obtain ⟨b, z, e1, _, _, e2⟩ := delete_ok true hg (s := .caller s') (k := k'.map .caller) (removeEmpty := re) rfl caller_text (by
        intro p hp e he _ q hq
        obtain ⟨t, _, rfl⟩ := Option.map_eq_some_iff.mp hp
        exact caller_not_string hg t e he q hq)
      simp only [IniHeap.act, e1] at hy
      cases hy
      refine hnone i rfl ?_
      rw [map_caller] at e2
      cases k' with
      | none =>
        refine (e2 e he (sameName_of_both h6 ha)).1 i ?_
        rw [mem_ids, List.mem_flatMap]
        exact ⟨q, hqe, by simp [Key.strings, h5]⟩
      | some k' =>
        refine (e2 e he (sameName_of_both h6 ha.1)).1 i ?_
        rw [mem_ids, List.mem_flatMap]
        exact ⟨q, List.mem_filter.mpr ⟨hqe, sameName_of_both h7 ha.2⟩, by simp [Key.strings, h5]⟩

/-- C77. With one value per key, every `SetValue` for a key that has a value costs one string, and one more for the comment, that only `Reset`, or deleting, can
    release: setting a key again and again takes ever more memory. -/
theorem C77_growth (h : List (Options × Action)) {x : Obj}
    (hx : IniHeap.after h = .ok x) {s k : Bytes} {p : Ptr} (hp : IniHeap.getValue x (.caller s) (.caller k) = .ok (some p))
    (sets : List (Options × Bytes × Option Bytes × Bool)) (hmk : ∀ e ∈ sets, e.1.multiKey = false) :
    ∃ y, IniHeap.after ((sets.map fun e => (e.1, .change (.set s k e.2.1 e.2.2.1 e.2.2.2))) ++ h) = .ok y
      ∧ y.mem.heap.length = x.mem.heap.length + sets.length + (sets.filter (·.2.2.1.isSome)).length := by
  suffices ∃ y, IniHeap.after ((sets.map fun e => (e.1, .change (.set s k e.2.1 e.2.2.1 e.2.2.2))) ++ h) = .ok y
      ∧ y.mem.heap.length = x.mem.heap.length + sets.length + (sets.filter (·.2.2.1.isSome)).length
      ∧ ∃ p, IniHeap.getValue y (.caller s) (.caller k) = .ok (some p) by
    obtain ⟨y, h1, h2, _⟩ := this
    exact ⟨y, h1, h2⟩
  induction sets with
  | nil => exact ⟨x, hx, rfl, p, hp⟩
  | cons e l ih =>
    obtain ⟨o, v, c, force⟩ := e
    obtain ⟨y, h2, h3, p, h4⟩ := ih fun e he => hmk e (List.mem_cons_of_mem _ he)
    have hmk := hmk (o, v, c, force) (by simp)
    obtain ⟨hv, hg, hgb⟩ := after_good h2
    obtain ⟨e, he, A, q, B, h5, h6, h7, h8⟩ := getValue_found hg h4
    have hq : q ∈ named y.mem k e.keys := List.mem_filter.mpr ⟨by rw [h5]; simp, h8⟩
    obtain ⟨b, z, h9, h10⟩ := addEntry_update hmk hg (s := .caller s) (k := .caller k) (v := .caller v) (c := c.map .caller) (force := force) rfl rfl rfl caller_text he h7
      (by intro hh; rw [hh] at hq; cases hq)
    have hz : IniHeap.after ((((o, v, c, force) :: l).map fun e => (e.1, Action.change (.set s k e.2.1 e.2.2.1 e.2.2.2))) ++ h) = .ok z := by
      simp only [List.map_cons, List.cons_append, IniHeap.after, h2, Except.bind, IniHeap.act, h9]
      rfl
    refine ⟨z, hz, ?_, ?_⟩
    · rw [h10, h3]
      cases c with
      | none => simp; omega
      | some c => simp; omega
    · obtain ⟨hvz, hgz, _⟩ := after_good hz
      obtain ⟨r, hr1, hr2, _⟩ := getValue_ok hgz (s := .caller s) (k := .caller k) rfl rfl
      rw [hvz] at hr2
      cases r with
      | some p => exact ⟨p, hr1⟩
      | none =>
        exfalso
        rw [getValue_head {}] at hr2
        simp only [List.map_cons, List.cons_append, IniStore.after, IniStore.act, ← hv] at hr2
        rw [IniStore.values_change o s k hg.inv, Spec.IniStore.Change.values, if_pos ⟨IniStore.sameCI_iff.mpr (Ini.sameName_refl s), IniStore.sameCI_iff.mpr (Ini.sameName_refl k)⟩,
          if_neg (by simpa using hmk)] at hr2
        cases hr2

/-- One section with one key and one value, all copied. -/
def IniHeap.single (s k v : Bytes) (a b c n m : Nat) (j i : Nat) : Obj :=
  { mem := { heap := [(a, s), (b, k), (c, v)], next := n, strings := [a, b, c] }, sections := [⟨.own a, none, j, [⟨.own b, none, i, .own c⟩]⟩], order := m }

set_option linter.unusedSimpArgs false in
theorem IniHeap.single_set (o : Options) (hmk : o.multiKey = true) (s k v v' : Bytes) {a b c n m j i : Nat} (h1 : a < b) (h2 : b < c) (h3 : c < n) :
    addEntry o (.caller s) (some (.caller k, .caller v')) none true true (single s k v a b c n m j i)
      = .ok (true, single s k v' a n (n + 1) (n + 2) (m + 1) j (min i (m + 1))) := by
  have hl : ∀ t, IniMem.less t t = false := fun t => (IniStore.same_iff.mp (Ini.sameName_refl t)).1
  have e1 : ¬ a = b := by omega
  have e2 : ¬ a = c := by omega
  have e3 : ¬ b = c := by omega
  have e4 : ¬ b = a := by omega
  have e5 : ¬ c = a := by omega
  have e6 : ¬ c = b := by omega
  have f1 : ¬ a = n := by omega
  have f2 : ¬ b = n := by omega
  have f3 : ¬ c = n := by omega
  have f4 : ¬ n = a := by omega
  have f5 : ¬ n + 1 = a := by omega
  by_cases hi : i < m + 1
  all_goals simp [addEntry, copyOptIf, addEntryRest, lower, hit, IniHeap.read, Mem.text, single, setKey, hmk, hl, bind, Except.bind, oldest, keepComment, deleteRun, deleteString, release, insertKey, copyIf, copyString, IniHeap.insert, List.erase_cons, e1,e2,e3,e4,e5,e6,f1,f2,f3,f4,f5, hi, Nat.min_def]
  all_goals omega

/-- C77. Where several values are allowed, replacing the value of a key again and again takes no more memory: names and value of the only key are all there is. -/
theorem C77_replace_bounded (s k : Bytes) (o : Options) (v : Bytes) (older : List (Options × Bytes)) (hmk : ∀ e ∈ (o, v) :: older, e.1.multiKey = true) :
    ∃ x, IniHeap.after (((o, v) :: older).map fun e => (e.1, .change (.set s k e.2 none true))) = .ok x ∧ x.mem.heap.length = 3 ∧ x.mem.blocks = [] := by
  suffices ∃ a b c n m j i, a < b ∧ b < c ∧ c < n
      ∧ IniHeap.after (((o, v) :: older).map fun e => (e.1, .change (.set s k e.2 none true))) = .ok (single s k v a b c n m j i) by
    obtain ⟨a, b, c, n, m, j, i, _, _, _, h⟩ := this
    exact ⟨_, h, rfl, rfl⟩
  induction older generalizing o v with
  | nil =>
    refine ⟨0, 1, 2, 3, 2, 1, 2, by decide, by decide, by decide, ?_⟩
    simp [IniHeap.after, IniHeap.act, addEntry, copyOptIf, addEntryRest, lower, hit, IniHeap.read, Mem.text, single, IniHeap.setKey, bind, Except.bind, insertKey, copyIf,
      copyString, IniHeap.insert, Except.map, List.find?]
  | cons w l ih =>
    obtain ⟨o', w⟩ := w
    obtain ⟨a, b, c, n, m, j, i, h1, h2, h3, h4⟩ := ih o' w fun e he => hmk e (List.mem_cons_of_mem _ he)
    refine ⟨a, n, n + 1, n + 2, m + 1, j, min i (m + 1), by omega, by omega, by omega, ?_⟩
    rw [List.map_cons]
    simp only [IniHeap.after, h4, Except.bind, IniHeap.act, Option.map_none, IniHeap.single_set o (hmk (o, v) (by simp)) s k w v h1 h2 h3]
    rfl

/-- C77. Where several values are allowed and there are no comments, the strings allocated are at any time the names and values of the object, each once: nothing
    is lost, whatever is replaced and deleted. -/
theorem C77_no_leak (h : List (Options × Action)) (hc : ∀ a ∈ h, a.1.multiKey = true ∧ NoComment a.2) :
    ∃ x, IniHeap.after h = .ok x ∧ (x.mem.heap.map (·.1)).Perm (ids x.ptrs) := by
  obtain ⟨x, h1, h2, ⟨h3, h4⟩, h5⟩ := after_ok h
  refine ⟨x, h1, ?_⟩
  suffices Tight x by
    rw [← h3.mem.strings]
    exact (List.perm_ext_iff_of_nodup h3.mem.nodup h3.nodup).mpr fun i => ⟨fun hi => mem_ids.mpr (this.all i hi), fun hi => by
      obtain ⟨t, ht⟩ := (h3.held _ (mem_ids.mp hi)).2
      rw [h3.mem.strings]
      unfold Mem.text at ht
      simp only [Option.map_eq_some_iff] at ht
      obtain ⟨e, he, _⟩ := ht
      have := List.find?_some he
      exact List.mem_map.mpr ⟨e, List.mem_of_find?_eq_some he, by simpa using this⟩⟩
  clear h2 h3 h4 h5
  induction h generalizing x with
  | nil => cases h1; exact ⟨⟨rfl, by simp⟩, by simp⟩
  | cons a h ih =>
    obtain ⟨o, a⟩ := a
    obtain ⟨x0, hx0, _, ⟨hg, hb⟩, _⟩ := after_ok h
    have ht := ih (fun b hb => hc b (List.mem_cons_of_mem _ hb)) x0 hx0
    obtain ⟨hmk, ha⟩ := hc (o, a) (by simp)
    have hm : StrOk x0.mem := ⟨hg.mem.nodup, hg.mem.bound⟩
    simp only [IniHeap.after, hx0, Except.bind] at h1
    cases hr : IniHeap.act o a x0 with
    | error f => rw [hr] at h1; cases h1
    | ok r =>
      rw [hr] at h1
      obtain ⟨b, y⟩ := r
      cases h1
      cases a with
      | change c =>
        cases c with
        | set s k v c force =>
          obtain rfl : c = none := ha
          exact addEntry_tight hmk hm.1 hm.2 hr ht
        | addSection s c =>
          obtain rfl : c = none := ha
          exact addEntry_tight hmk hm.1 hm.2 hr ht
        | delete s k re => exact delete_tight hm.1 hr ht
      | load t =>
        simp only [IniHeap.act] at hr
        cases hl : IniHeap.load o t x0 with
        | error f => rw [hl] at hr; cases hr
        | ok z => rw [hl] at hr; cases hr; exact load_tight hmk ha hl hm ht
      | reset =>
        simp only [IniHeap.act] at hr
        cases hz : IniHeap.reset x0 with
        | error f => rw [hz] at hr; cases hr
        | ok z => rw [hz] at hr; cases hr; exact reset_tight hz

/-- C77. Strings of the object itself may be passed as arguments, names, values and comments alike, as long as no value is replaced where several are allowed:
    the result is that of passing copies. -/
theorem C77_own_arguments (o : Options) (h : List (Options × Action)) {x : Obj} (hx : IniHeap.after h = .ok x)
    {s k v : Ptr} {c : Option Ptr} {ts tk tv : Bytes} (hs : IniHeap.read x.mem s = .ok ts) (hk : IniHeap.read x.mem k = .ok tk) (hv : IniHeap.read x.mem v = .ok tv)
    (hc : ∀ p, c = some p → ∃ t, IniHeap.read x.mem p = .ok t) {force : Bool} (hf : o.multiKey = false ∨ force = false) :
    ∃ r y, addEntry o s (some (k, v)) c force true x = .ok (r, y) ∧ (r, view y) = IniStore.addEntry o ts (some (tk, tv)) (c.map (tx x.mem)) force (IniStore.after h) := by
  have hread : ∀ {p t}, IniHeap.read x.mem p = .ok t → x.mem.text p = some t := by
    intro p t hp
    unfold IniHeap.read at hp
    split at hp
    · cases hp; assumption
    · cases hp
  obtain ⟨hvw, hg, _⟩ := after_good hx
  obtain ⟨r, y, h1, h2, _⟩ := addEntry_ok (o := o) hg (copy := true) (force := force) (hread hs) (hread hk) (hread hv) (fun p hp => (hc p hp).imp fun _ => hread) (by simp)
    (fun h1 h2 => by rcases hf with hf | hf <;> simp_all)
  exact ⟨r, y, h1, by rw [h2, hvw]⟩

/-- C77. But replacing the values of a key by one of them, where several are allowed, reads that value after its release: `SetValue(s, k, GetValue(s, k), …, true)`. -/
theorem C77_alias_set (o : Options) (hmk : o.multiKey = true) (h : List (Options × Action)) {x : Obj}
    (hx : IniHeap.after h = .ok x) {s k : Bytes} {i : Nat} (hp : IniHeap.getValue x (.caller s) (.caller k) = .ok (some (.own i))) (c : Option Bytes) :
    addEntry o (.caller s) (some (.caller k, .own i)) (c.map .caller) true true x = .error .useAfterFree := by
  obtain ⟨_, hg, _⟩ := after_good hx
  obtain ⟨e, he, A, q, B, h4, h5, h6, h7⟩ := getValue_found hg hp
  have hq : q ∈ named x.mem k e.keys := List.mem_filter.mpr ⟨by rw [h4]; simp, h7⟩
  refine (addEntry_replace hmk hg (s := .caller s) (k := .caller k) (c := c.map .caller) rfl rfl caller_text he h6
    (by intro hh; rw [hh] at hq; cases hq) (caller_not_string hg k e he) ?_).2
  rw [mem_ids, List.mem_flatMap]
  exact ⟨q, hq, by simp [Key.strings, h5]⟩

/-- C77. And `Delete` with the name of the key as `GetAllKeys` lists it reads that name after its release, unless the key is the last one of the section. -/
theorem C77_alias_delete (h : List (Options × Action)) {x : Obj} (hx : IniHeap.after h = .ok x)
    {e : Sect} (he : e ∈ x.sections) {s : Ptr} {ts : Bytes} (hs : IniHeap.read x.mem s = .ok ts) (hsame : Spec.SameCI (tx x.mem e.name) ts)
    {A : List Key} {q q2 : Key} {B : List Key} (hkeys : e.keys = A ++ q :: q2 :: B) {i : Nat} (hq : q.name = .own i)
    (hA : ∀ a ∈ A, ¬ Spec.SameCI (tx x.mem a.name) (tx x.mem q.name)) (removeEmpty : Bool) :
    delete s (some q.name) removeEmpty x = .error .useAfterFree := by
  obtain ⟨_, hg, _⟩ := after_good hx
  have hs' : x.mem.text s = some ts := by
    unfold IniHeap.read at hs
    split at hs
    · cases hs; assumption
    · cases hs
  refine delete_alias hg hs' removeEmpty he (IniStore.sameCI_iff.mp hsame) hkeys hq ?_
  unfold named
  rw [hkeys, List.filter_append, List.filter_eq_nil_iff.mpr fun a ha hh => hA a ha (IniStore.sameCI_iff.mpr hh), List.nil_append,
    List.filter_cons, if_pos (Ini.sameName_refl _)]
  rfl

/-! ## Cases -/

deriving instance DecidableEq for Except

/-- Two texts are loaded, keys and comments are added and deleted. -/
def IniHeap.sampleActions : List (Options × Action) :=
  [.change (.delete b!"A" (some b!"y") true), .change (.set b!"b" b!"k" b!"4" (some b!"; c") false), .load b!"[a]\ny=5\nw=6\n",
    .change (.set b!"a" b!"z" b!"3" none true), .load b!"# all\n\n[a]\nx=1\ny=2\n"].map fun a => ({}, a)

example : [(IniStore.after sampleActions).fileComment, (IniStore.getValue {} (IniStore.after sampleActions) b!"A" b!"Z").1,
      (IniStore.getValue {} (IniStore.after sampleActions) b!"a" b!"y").1, (IniStore.getValue {} (IniStore.after sampleActions) b!"a" b!"w").1]
    = [some b!"# all", some b!"3", none, some b!"6"] := by decide +kernel

/-- the addresses: `x` in the first text, the others copied; the value 5 of the second text replaced 2 and was released with `y` -/
example : (IniHeap.after sampleActions).map (fun x => (getValue x (.caller b!"a") (.caller b!"x"), x.mem.strings.length, x.mem.blocks))
    = .ok (.ok (some (.block 0 b!"1")), 8, [0]) := by decide +kernel

/-- a string that lives through the three last calls: none of them releases it -/
example : ∃ x y, IniHeap.after (sampleActions.drop 3) = .ok x ∧ IniHeap.after sampleActions = .ok y
    ∧ getValue x (.caller b!"a") (.caller b!"z") = .ok (some (.own 2)) ∧ IniHeap.read y.mem (.own 2) = .ok b!"3" := by
  obtain ⟨y, hy, _⟩ := C77_no_fault sampleActions
  obtain ⟨x, hx, _⟩ := C77_no_fault (sampleActions.drop 3)
  have hv : (IniHeap.after (sampleActions.drop 3)).map (fun x => (getValue x (.caller b!"a") (.caller b!"z"), IniHeap.read x.mem (.own 2)))
      = .ok (.ok (some (.own 2)), .ok b!"3") := by decide +kernel
  rw [hx] at hv
  simp only [Except.map, Except.ok.injEq, Prod.mk.injEq] at hv
  refine ⟨x, y, hx, hy, hv.1, ?_⟩
  exact C77_pointer_stable _ (sampleActions.take 3) hx hy hv.1 hv.2 (by
    intro a ha
    simp only [sampleActions, List.map_cons, List.take_succ_cons, List.take_zero, List.mem_cons, List.not_mem_nil, or_false] at ha
    have hk : ¬ Spec.SameCI b!"y" b!"z" := fun h => absurd (IniStore.sameCI_iff.mp h) (by decide +kernel)
    rcases ha with rfl | rfl | rfl
    · exact fun h => hk h.2
    · exact fun h => absurd h.1 (by decide)
    · exact id)

/-- nothing is lost: two texts, a replacement of two values, a deletion; three copied strings remain allocated -/
example : (∀ a ∈ ([.change (.delete b!"a" (some b!"y") false), .change (.set b!"A" b!"X" b!"9" none true), .load b!"[a]\nx=2\n[b]\n", .load b!"[a]\nx=1\ny=0\n"] : List Action), NoComment a)
    ∧ (IniHeap.after ([.change (.delete b!"a" (some b!"y") false), .change (.set b!"A" b!"X" b!"9" none true), .load b!"[a]\nx=2\n[b]\n", .load b!"[a]\nx=1\ny=0\n"].map fun a => ({ multiKey := true }, a))).map
      (fun x => (x.mem.heap.map (·.1), ids x.ptrs)) = .ok ([4, 5, 6], [5, 6, 4]) := by
  refine ⟨?_, by decide +kernel⟩
  intro a ha
  simp only [List.mem_cons, List.not_mem_nil, or_false] at ha
  rcases ha with rfl | rfl | rfl | rfl
  · trivial
  · rfl
  · unfold NoComment; decide +kernel
  · unfold NoComment; decide +kernel

/-- malformed headers: the name of the section is the text up to the end of the first key, or of the first comment -/
example : (IniStore.after [({}, .load b!"[ a \nb\nx =1\ny=2\n[c\n; d\n; e\n\nz=3\n[f\n[g]\nw=4\n")]).sections.map (fun e => (e.name, e.comment, e.keys.map fun k => (k.name, k.value)))
    = [(b!"a \nb\nx", none, [(b!"x", b!"1"), (b!"y", b!"2")]), (b!"c\n; d\n; e", none, [(b!"z", b!"3")]), (b!"g", none, [(b!"w", b!"4")])] := by decide +kernel

/-- finding: a value that begins with its tag has no end of its own: in the first text it goes on to the end of the next key, in a further one to the end
    of the text -/
example : let o : Options := { multiLine := true }
    let t := b!"k=<<<T\nT\nmore\n; note\nx=1\ny=2\n"
    let u := b!"k=<<<T\nT\nmore\nx =1\ny=2\n"
    ((IniStore.getValue o (IniStore.after [(o, .load t)]) [] b!"k").1, (IniStore.getValue o (IniStore.after [(o, .load u)]) [] b!"k").1,
      (IniStore.getValue o (IniStore.after [(o, .load u), (o, .load b!"a=0\n")]) [] b!"k").1,
      (IniStore.getValue o (IniStore.after [(o, .load u), (o, .load b!"a=0\n")]) [] b!"x").1)
    = (some b!"T\nmore\n; note", some b!"T\nmore\nx", some b!"T\nmore\nx =1\ny=2\n", some b!"1") := by decide +kernel

/-- finding: a program that deletes the keys of a section as `GetAllKeys` lists them -/
example : ((IniHeap.after [({}, .change (.set b!"s" b!"b" b!"2" none false)), ({}, .change (.set b!"s" b!"a" b!"1" none false))]).map fun x =>
      (x.sections.map fun e => e.keys.map (·.name), (delete (.caller b!"s") (some (.own 1)) false x).map (·.1)))
    = .ok ([[.own 1, .own 3]], .error .useAfterFree) := by decide +kernel

/-- finding: a program that reduces a key to its first value -/
example : ((IniHeap.after [({ multiKey := true }, .change (.set b!"s" b!"k" b!"2" none false)), ({ multiKey := true }, .change (.set b!"s" b!"k" b!"1" none false))]).map fun x =>
      (getValue x (.caller b!"s") (.caller b!"k"), (addEntry { multiKey := true } (.caller b!"s") (some (.caller b!"k", .own 2)) none true true x).map (·.1)))
    = .ok (.ok (some (.own 2)), .error .useAfterFree) := by decide +kernel

/-- finding: many values of one key, only the last of which can be found -/
example (v : Bytes) (n : Nat) : ∃ x, IniHeap.after ((List.replicate n (({} : Options), b!"x", none, true)).map (fun e => (e.1, .change (.set b!"s" b!"k" e.2.1 e.2.2.1 e.2.2.2)))
      ++ [(({} : Options), .change (.set b!"s" b!"k" v none false))]) = .ok x ∧ x.mem.heap.length = n + 3 := by
  obtain ⟨x, hx, h3⟩ : ∃ x, IniHeap.after [({}, .change (.set b!"s" b!"k" v none false))] = .ok x ∧ x = single b!"s" b!"k" v 0 1 2 3 2 1 2 := ⟨_, rfl, rfl⟩
  obtain ⟨y, hy, hlen⟩ := C77_growth _ hx (s := b!"s") (k := b!"k") (p := .own 2) (by rw [h3]; rfl)
    (List.replicate n ({}, b!"x", none, true)) fun e he => by rw [(List.mem_replicate.mp he).2]
  refine ⟨y, hy, ?_⟩
  rw [hlen, h3, List.length_replicate]
  have : (List.replicate n (({} : Options), (b!"x" : Bytes), (none : Option Bytes), true)).filter (·.2.2.1.isSome) = [] := by
    rw [List.filter_eq_nil_iff]
    intro a ha
    rw [(List.mem_replicate.mp ha).2]
    simp
  rw [this]
  show 3 + n + 0 = n + 3
  omega

end Licensecc
