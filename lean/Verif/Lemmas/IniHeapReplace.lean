import Verif.Lemmas.IniHeapLoad
/-!
# Lemmas about the memory of INI objects: what is released, and what is not
-/
namespace Licensecc.IniHeap
open Ini hiding getValue setKey load
open IniStore (Options insertBy SortedS SortedW Inv Found)
open IniMem (less)

/-- Replacing the values of a key: the old ones are gone before the new entry is made. -/
theorem setKey_replace {o : Options} (hmk : o.multiKey = true) {m : Mem} (hm : MemOk m) {s k : Ptr} (v : Ptr) {c : Option Ptr} {copy : Bool} (n : Nat) {keys : List Key}
    {ts tk : Bytes} (hs : m.text s = some ts) (hk : m.text k = some tk) (hc : ∀ p, c = some p → Held m p)
    (hcs : ∀ i, c = some (.own i) → s ≠ .own i ∧ k ≠ .own i)
    (hheld : ∀ e ∈ keys, ∀ p ∈ e.ptrs, Held m p) (hd : (ids (c.toList ++ keys.flatMap Key.ptrs)).Nodup)
    (hsort : SortedW IniStore.Key.name (keys.map (viewKey m)))
    (halias : ∀ e ∈ named m tk keys, k ∉ e.strings) (hne : named m tk keys ≠ []) :
    ∃ c' m' i rest, setKey o s k v c true copy n keys m = insertKey k v c' copy i rest m' ∧ MemOk m' ∧ m'.text k = some tk ∧ m.next ≤ m'.next
      ∧ (∀ i ∈ ids ((named m tk keys).flatMap Key.strings), i ∉ m'.strings) := by
  have hsort' := sortedW_view hsort
  obtain ⟨sp1, sp2⟩ := sorted_split hsort' tk
  have hN : ∀ e ∈ keys, m.text e.name = some (tx m e.name) := fun e he => (hheld e he e.name (by simp [Key.ptrs, Key.strings])).text
  have hdrop : ∀ e ∈ keys.dropWhile (fun e => less (tx m e.name) tk), e ∈ keys := fun e he => (List.dropWhile_sublist _).subset he
  have hfirst := first_iff hsort' tk
  have hlow := lower_ok (name := Key.name) (N := fun e : Key => tx m e.name) hk hN
  have hhit := hit_ok (name := Key.name) (N := fun e : Key => tx m e.name) (l := keys.dropWhile (fun e => less (tx m e.name) tk)) hk
    fun e he => hN e (hdrop e (List.mem_of_mem_head? he))
  unfold setKey
  rw [hlow]
  simp only [bind, Except.bind]
  rw [hhit]
  simp only
  have hfo : first (fun e : Key => tx m e.name) tk (keys.dropWhile (fun e => less (tx m e.name) tk)) = true := hfirst.mpr hne
  rw [if_pos (by rw [hfo, hmk]; rfl)]
  rw [oldest_ok (N := fun e : Key => tx m e.name) hk _ _ fun e he => hN e (hdrop e he)]
  simp only
  rw [← sp1]
  have hrun : keys.filter (fun e => sameName (tx m e.name) tk) = named m tk keys := rfl
  rw [hrun]
  generalize hold : (named m tk keys).foldl (fun acc e => if e.order < acc.1 then (e.order, e.comment) else acc) (n, (none : Option Ptr)) = old
  have holdmem : ∀ p, old.2 = some p → ∃ e ∈ keys, e.comment = some p := by
    intro p hp
    rw [← hold] at hp
    rcases oldest_comment _ _ p hp with h | ⟨e, he, h⟩
    · cases h
    · exact ⟨e, (List.mem_filter.mp he).1, h⟩
  have hdc : ∀ p, c = some p → ∀ e ∈ keys, p ∈ e.ptrs → ∀ i, p ≠ .own i := by
    intro p hp e he hpe i hi
    rw [ids_append, List.nodup_append] at hd
    exact hd.2.2 i (by rw [mem_ids]; rw [hp]; simp [hi]) i (by rw [mem_ids, List.mem_flatMap]; exact ⟨e, he, hi ▸ hpe⟩) rfl
  -- the comment
  have hkeep : ∃ c' m', keepComment m c old.2 = .ok (c', m') ∧ MemOk m' ∧ Frame (ids c.toList) m m' ∧ (∀ p, c' = some p → Held m' p)
      ∧ c'.map (tx m') = (old.2.or c).map (tx m) ∧ ((c' = c ∧ m' = m) ∨ ∃ i, c' = some (.own i) ∧ m.next ≤ i ∧ i < m'.next) := by
    by_cases hce : ∃ p, old.2 = some p ∧ c = some p
    · -- the same string can only be one of a block
      obtain ⟨p, h1, h2⟩ := hce
      obtain ⟨e, he, hec⟩ := holdmem p h1
      have hph := hheld e he p (by simp [Key.ptrs, hec])
      have hno := hdc p h2 e he (by simp [Key.ptrs, hec])
      have hids : ids c.toList = [] := by
        rw [h2]
        cases p with
        | caller t => rfl
        | block b t => rfl
        | own i => exact absurd rfl (hno i)
      obtain ⟨m2, e2, o2, f2, t2, n2, _⟩ := copyString_ok hm hph.text
      refine ⟨some (.own m.next), m2, ?_, o2, by rw [hids]; exact f2, ?_, ?_, ?_⟩
      · rw [h1, h2]
        unfold keepComment deleteStringOpt
        simp only
        have : deleteString m p = .ok m := by
          cases p with
          | caller t => rfl
          | block b t => rfl
          | own i => exact absurd rfl (hno i)
        rw [this]
        simp only [bind, Except.bind, e2]
      · intro q hq; cases hq; exact ⟨by simp, _, t2⟩
      · rw [h1]; simp [tx_eq t2]
      · exact .inr ⟨m.next, rfl, by omega, by omega⟩
    · refine keepComment_ok hm (fun p hp => ?_) hc
      obtain ⟨e, he, hec⟩ := holdmem p hp
      exact ⟨hheld e he p (by simp [Key.ptrs, hec]), fun h => hce ⟨p, hp, h⟩⟩
  obtain ⟨c1, m1, e1, o1, f1, h1, v1, n1⟩ := hkeep
  rw [e1]
  simp only
  -- nothing else is touched
  have hfree : ∀ e ∈ keys, ∀ p ∈ e.ptrs, ∀ i ∈ ids c.toList, p ≠ .own i := by
    intro e he p hp i hi hh
    rw [mem_ids] at hi
    have hci : c = some (.own i) := by simpa using hi
    exact hdc _ hci e he (hh ▸ hp) i rfl
  have harg : ∀ p : Ptr, (∀ i, c = some (.own i) → p ≠ .own i) → ∀ i ∈ ids c.toList, p ≠ .own i := by
    intro p hp i hi
    exact hp i (by rw [mem_ids] at hi; simpa using hi)
  have hs1 : m1.text s = some ts := f1.text s ts hs (harg s fun i hi => (hcs i hi).1)
  have hk1 : m1.text k = some tk := f1.text k tk hk (harg k fun i hi => (hcs i hi).2)
  have hN1 : ∀ e ∈ keys, m1.text e.name = some (tx m e.name) := fun e he =>
    f1.text _ _ (hN e he) (hfree e he e.name (by simp [Key.ptrs, Key.strings]))
  have hheld1 : ∀ e ∈ keys, ∀ p ∈ e.ptrs, Held m1 p := fun e he p hp => (hheld e he p hp).frame f1 (hfree e he p hp)
  rw [read_ok hs1]
  simp only
  rw [lower_ok (name := Key.name) (N := fun e : Key => tx m e.name) hk1 hN1]
  simp only
  have hdk : (ids (keys.flatMap Key.ptrs)).Nodup := by
    rw [ids_append, List.nodup_append] at hd; exact hd.2.1
  have hdks : (ids (keys.flatMap Key.strings)).Nodup := hdk.sublist (ids_sublist (strings_sublist keys))
  obtain ⟨m2, e2, o2, f2, n2, d2⟩ := deleteRun_ok (N := fun e : Key => tx m e.name) (k := k) (t := tk) (keys.dropWhile (fun e => less (tx m e.name) tk)) m1 o1
    (fun e he => hN1 e (hdrop e he)) hk1 (hdks.sublist (ids_sublist (flatMap_sublist (List.dropWhile_sublist _)))) (fun _ => hfo)
    (fun e he => halias e (by rw [← hrun, sp1]; exact he))
  rw [e2]
  simp only
  rw [← sp1, hrun] at f2 d2
  rw [← sp2]
  have hargs : ∀ p : Ptr, (∀ e ∈ named m tk keys, p ∉ e.strings) → ∀ i ∈ ids ((named m tk keys).flatMap Key.strings), p ≠ .own i := by
    intro p hp i hi hh
    rw [mem_ids, List.mem_flatMap] at hi
    obtain ⟨e, he, h⟩ := hi
    exact hp e he (hh ▸ h)
  exact ⟨c1, m2, old.1, _, rfl, o2, f2.text k tk hk1 (hargs k halias), Nat.le_trans f1.next f2.next, fun i hi hm => (d2 i hm).2 hi⟩

/-- `find` for a section that is there. -/
theorem section_at {x : Obj} (hx : ObjOk x) {s : Ptr} {ts : Bytes} (hs : x.mem.text s = some ts) {e : Sect} (he : e ∈ x.sections)
    (hsame : sameName (tx x.mem e.name) ts = true) :
    ∃ lo after, x.sections = lo ++ e :: after ∧ lower x.mem Sect.name s x.sections = .ok (lo, e :: after)
      ∧ hit x.mem Sect.name s (e :: after) = .ok true := by
  have hN := hN_sections hx
  have hlow := lower_ok (N := fun e : Sect => tx x.mem e.name) hs hN
  have hne : x.sections.filter (fun e => sameName (tx x.mem e.name) ts) ≠ [] := by
    intro h
    rw [List.filter_eq_nil_iff] at h
    exact h e he hsame
  have hfo := (first_iff (sortedS_W (sortedS_sections hx)) ts).mpr hne
  cases hr : x.sections.dropWhile (fun e => less (tx x.mem e.name) ts) with
  | nil => rw [hr] at hfo; cases hfo
  | cons a after =>
    rw [hr] at hfo hlow
    obtain ⟨_, h1, h2, h3, h4⟩ := IniStore_findSection_found hx hr hfo
    have hae : e = a := by
      rw [h2] at he
      rcases List.mem_append.mp he with he | he
      · rw [h3 e he] at hsame; cases hsame
      · rcases List.mem_cons.mp he with he | he
        · exact he
        · rw [h4 e he] at hsame; cases hsame
    subst hae
    refine ⟨_, after, h2, hlow, ?_⟩
    rw [hit_ok (N := fun e : Sect => tx x.mem e.name) hs fun b hb => ?_]
    · rw [hfo]
    · cases hb; exact hN e he

/-- `find` for a key that is there. -/
theorem key_at {x : Obj} (hx : ObjOk x) {k : Ptr} {tk : Bytes} (hk : x.mem.text k = some tk) {e : Sect} (he : e ∈ x.sections)
    (hne : named x.mem tk e.keys ≠ []) :
    ∃ A q B, e.keys = A ++ q :: B ∧ lower x.mem Key.name k e.keys = .ok (A, q :: B) ∧ hit x.mem Key.name k (q :: B) = .ok true
      ∧ (named x.mem tk e.keys).head? = some q := by
  have hN : ∀ q ∈ e.keys, x.mem.text q.name = some (tx x.mem q.name) := fun q hq =>
    (hx.held q.name (mem_ptrs_key he hq (by simp [Key.ptrs, Key.strings]))).text
  have hsort : SortedW (fun q : Key => tx x.mem q.name) e.keys :=
    sortedW_view (hx.inv.keys (viewSect x.mem e) (List.mem_map.mpr ⟨e, he, rfl⟩)).sorted
  have hlow := lower_ok (N := fun e : Key => tx x.mem e.name) hk hN
  have hfo := (first_iff hsort tk).mpr hne
  have hsp := (sorted_split hsort tk).1
  have hrun : e.keys.filter (fun q => sameName (tx x.mem q.name) tk) = named x.mem tk e.keys := rfl
  rw [hrun] at hsp
  cases hr : e.keys.dropWhile (fun e => less (tx x.mem e.name) tk) with
  | nil => rw [hr] at hfo; cases hfo
  | cons q B =>
    rw [hr] at hfo hlow hsp
    have hq' : (!less tk (tx x.mem q.name)) = true := hfo
    rw [List.takeWhile_cons, if_pos hq'] at hsp
    have hkeys : e.keys = e.keys.takeWhile (fun e => less (tx x.mem e.name) tk) ++ q :: B := by
      conv => lhs; rw [← List.takeWhile_append_dropWhile (p := fun q : Key => less (tx x.mem q.name) tk) (l := e.keys), hr]
    refine ⟨_, q, B, hkeys, hlow, ?_, by rw [hsp]; rfl⟩
    rw [hit_ok (N := fun e : Key => tx x.mem e.name) hk fun b hb => ?_]
    · rw [hfo]
    · cases hb; exact hN q (by rw [hkeys]; simp)

theorem text_none {m : Mem} (hm : MemOk m) {i : Nat} (h : i ∉ m.strings) : m.text (.own i) = none := by
  cases ht : m.text (.own i) with
  | none => rfl
  | some t => exact absurd ((text_own hm).mp ⟨t, ht⟩) h

theorem insertKey_strings {k v : Ptr} {c : Option Ptr} {n : Nat} {keys : List Key} {m : Mem} :
    (∀ r, insertKey k v c true n keys m = .ok r → ∀ i ∈ r.2.2.strings, i ∈ m.strings ∨ m.next ≤ i)
    ∧ (∀ t, m.text k = some t → MemOk m → ∀ i, i < m.next → i ∉ m.strings → insertKey k (.own i) c true n keys m = .error .useAfterFree) := by
  constructor
  · intro r hr i hi
    simp only [insertKey, copyIf, copyString, if_true, bind, Except.bind, Except.ok.injEq] at hr
    repeat' split at hr
    all_goals try (cases hr; done)
    rename_i h1 _ _ h2 _ _ h3
    repeat' split at h1
    all_goals try (cases h1; done)
    repeat' split at h2
    all_goals try (cases h2; done)
    cases hr
    cases h1
    cases h2
    simp only [List.mem_append, List.mem_singleton] at hi
    rcases hi with (hi | hi) | hi
    · exact .inl hi
    · exact .inr (by omega)
    · exact .inr (by omega)
  · intro t ht hm i hi hni
    obtain ⟨m', e1, o1, f1, t1, n1, _⟩ := copyString_ok hm ht
    have hnone : m'.text (.own i) = none := by
      cases h : m'.text (.own i) with
      | none => rfl
      | some u =>
        have := f1.back _ _ h (by intro j hj; cases hj; exact hi)
        rw [text_none hm hni] at this
        cases this
    unfold insertKey
    simp only [copyIf, if_true, bind, Except.bind]
    rw [e1]
    simp only [copyString, read, hnone, bind, Except.bind]

/-- Replacing all values of a key: the old ones are released, and if the new value is one of them it is read too late. -/
theorem addEntry_replace {o : Options} {x : Obj} (hmk : o.multiKey = true) (hx : ObjOk x) {s k : Ptr} {c : Option Ptr} {ts tk : Bytes}
    (hs : x.mem.text s = some ts) (hk : x.mem.text k = some tk) (hc : ∀ p, c = some p → ∃ t, x.mem.text p = some t)
    {e : Sect} (he : e ∈ x.sections) (hsame : sameName (tx x.mem e.name) ts = true) (hne : named x.mem tk e.keys ≠ [])
    (halias : ∀ q ∈ named x.mem tk e.keys, k ∉ q.strings) {i : Nat} (hi : i ∈ ids ((named x.mem tk e.keys).flatMap Key.strings)) :
    (∀ v b y, addEntry o s (some (k, v)) c true true x = .ok (b, y) → i ∉ y.mem.strings)
    ∧ addEntry o s (some (k, .own i)) c true true x = .error .useAfterFree := by
  obtain ⟨c', m, e1, o1, f1, t1, h1, n1, cp1⟩ := copyOptIf_ok (b := true) hx.mem hc (by simp)
  have hx1 : ObjOk { x with mem := m } := hx.frame o1 f1 (by simp)
  have hib : i < x.mem.next := by
    refine id_bound hx ?_
    rw [mem_ids, List.mem_flatMap] at hi
    obtain ⟨q, hq, hp⟩ := hi
    rw [mem_ids]
    exact mem_ptrs_key he (List.mem_filter.mp hq).1 (List.mem_append_left _ hp)
  have hnew : ∀ j, c' = some (.own j) → ∀ p t, x.mem.text p = some t → p ≠ .own j := by
    intro j hj p t hp hh
    subst hh
    have := n1 _ hj j rfl
    have := text_bound hx.mem hp
    omega
  have hd : (ids (c'.toList ++ ({ x with mem := m } : Obj).ptrs)).Nodup := by
    rw [ids_append, List.nodup_append]
    refine ⟨?_, hx.nodup, fun a ha b hb hab => ?_⟩
    · cases c' with
      | none => exact .nil
      | some p => exact ids_one_nodup p
    · have hca : c' = some (.own a) := by simpa using mem_ids.mp ha
      have := n1 _ hca a rfl
      have := id_bound hx hb
      omega
  have htx : ∀ p ∈ x.ptrs, tx m p = tx x.mem p := fun p hp => tx_frame (hx.held p hp) f1 (by simp)
  have hnamed : named m tk e.keys = named x.mem tk e.keys := by
    unfold named
    refine List.filter_congr fun q hq => ?_
    rw [htx q.name (mem_ptrs_key he hq (by simp [Key.ptrs, Key.strings]))]
  have hs1 : m.text s = some ts := f1.text s ts hs (by simp)
  have hk1 : m.text k = some tk := f1.text k tk hk (by simp)
  obtain ⟨lo, after, hsec, hlow, hhit⟩ := section_at hx1 hs1 (e := e) he (by
    show sameName (tx m e.name) ts = true
    rw [htx _ (mem_ptrs_name he)]; exact hsame)
  have hdk : (ids (c'.toList ++ e.keys.flatMap Key.ptrs)).Nodup := by
    refine hd.sublist (ids_sublist ((List.Sublist.refl _).append ?_))
    refine List.Sublist.trans ?_ (List.sublist_append_right _ _)
    show (e.keys.flatMap Key.ptrs).Sublist (x.sections.flatMap Sect.ptrs)
    have hsec' : x.sections = lo ++ e :: after := hsec
    rw [hsec', List.flatMap_append, List.flatMap_cons]
    refine List.Sublist.trans ?_ (List.sublist_append_right _ _)
    refine List.Sublist.trans ?_ (List.sublist_append_left _ _)
    exact List.sublist_append_right _ _
  have hkeys : SortedW IniStore.Key.name (e.keys.map (viewKey m)) := (hx1.inv.keys (viewSect m e) (List.mem_map.mpr ⟨e, he, rfl⟩)).sorted
  have key := fun v => setKey_replace hmk o1 v (x.order + 1) (copy := true) hs1 hk1 h1 (fun j hj => ⟨hnew j hj s ts hs, hnew j hj k tk hk⟩)
    (fun q hq p hp => hx1.held p (mem_ptrs_key (x := { x with mem := m }) he hq hp)) hdk hkeys
    (by rw [hnamed]; exact halias) (by rw [hnamed]; exact hne)
  have hform : ∀ v, addEntry o s (some (k, v)) c true true x = (do
      let q ← setKey o s k v c' true true (x.order + 1) e.keys m
      .ok (q.1, { x with mem := q.2.2, order := x.order + 1, sections := lo ++ { e with keys := q.2.1 } :: after })) := by
    intro v
    unfold addEntry
    rw [e1]
    simp only [bind, Except.bind]
    unfold addEntryRest
    simp only at hlow hhit
    simp only [bind, Except.bind]
    rw [hlow]
    simp only
    rw [hhit]
  constructor
  · intro v b y hy
    obtain ⟨c2, m2, j, rest, e2, o2, k2, nx2, r2⟩ := key v
    rw [hform, e2] at hy
    simp only [bind, Except.bind] at hy
    cases hins : insertKey k v c2 true j rest m2 with
    | error f => rw [hins] at hy; cases hy
    | ok r =>
      rw [hins] at hy
      cases hy
      intro hmem
      rcases insertKey_strings.1 r hins i hmem with h | h
      · exact r2 i (by rw [hnamed]; exact hi) h
      · have := f1.next; omega
  · obtain ⟨c2, m2, j, rest, e2, o2, k2, nx2, r2⟩ := key (.own i)
    have hb2 : i < m2.next := by have := f1.next; omega
    rw [hform, e2, (insertKey_strings (v := k)).2 tk k2 o2 i hb2 (r2 i (by rw [hnamed]; exact hi))]
    rfl

/-- `SetValue` for a key that has a value, with one value per key: the old value stays allocated, and so do comments. -/
theorem addEntry_update {o : Options} {x : Obj} (hmk : o.multiKey = false) (hx : ObjOk x) {s k v : Ptr} {c : Option Ptr} {force : Bool} {ts tk tv : Bytes}
    (hs : x.mem.text s = some ts) (hk : x.mem.text k = some tk) (hv : x.mem.text v = some tv) (hc : ∀ p, c = some p → ∃ t, x.mem.text p = some t)
    {e : Sect} (he : e ∈ x.sections) (hsame : sameName (tx x.mem e.name) ts = true) (hne : named x.mem tk e.keys ≠ []) :
    ∃ b y, addEntry o s (some (k, v)) c force true x = .ok (b, y) ∧ y.mem.heap.length = x.mem.heap.length + 1 + c.toList.length := by
  obtain ⟨c', m, e1, o1, f1, t1, h1, n1, cp1⟩ := copyOptIf_ok (b := true) hx.mem hc (by simp)
  have hlen : m.heap.length = x.mem.heap.length + c.toList.length := by
    cases c with
    | none => cases e1; rfl
    | some p =>
      obtain ⟨t, ht⟩ := hc p rfl
      simp only [copyOptIf, copyIf, if_true, copyString, read_ok ht, bind, Except.bind] at e1
      cases e1
      simp
  have hx1 : ObjOk { x with mem := m } := hx.frame o1 f1 (by simp)
  have htx : ∀ p ∈ x.ptrs, tx m p = tx x.mem p := fun p hp => tx_frame (hx.held p hp) f1 (by simp)
  have hnamed : named m tk e.keys = named x.mem tk e.keys := by
    unfold named
    refine List.filter_congr fun q hq => ?_
    rw [htx q.name (mem_ptrs_key he hq (by simp [Key.ptrs, Key.strings]))]
  have hs1 : m.text s = some ts := f1.text s ts hs (by simp)
  have hk1 : m.text k = some tk := f1.text k tk hk (by simp)
  have hv1 : m.text v = some tv := f1.text v tv hv (by simp)
  obtain ⟨lo, after, hsec, hlow, hhit⟩ := section_at hx1 hs1 (e := e) he (by
    show sameName (tx m e.name) ts = true
    rw [htx _ (mem_ptrs_name he)]; exact hsame)
  obtain ⟨A, q, B, hkeys, hlow2, hhit2, _⟩ := key_at hx1 (e := e) hk1 he (by
    show named m tk e.keys ≠ []
    rw [hnamed]; exact hne)
  simp only at hlow hhit hlow2 hhit2
  unfold addEntry
  rw [e1]
  simp only [bind, Except.bind]
  unfold addEntryRest
  simp only [bind, Except.bind]
  rw [hlow]
  simp only
  rw [hhit]
  simp only
  unfold setKey
  simp only [bind, Except.bind]
  rw [hlow2]
  simp only
  rw [hhit2]
  simp only [hmk, Bool.and_false, Bool.false_and, Bool.not_true, Bool.or_false, Bool.false_eq_true, if_false]
  simp only [copyIf, if_true, copyString, read_ok hv1, bind, Except.bind]
  exact ⟨_, _, rfl, by simp [hlen]; omega⟩

/-- `Delete` with the object's own copy of the name of the key: it is released, and then compared with the next key. -/
theorem delete_alias {x : Obj} (hx : ObjOk x) {s : Ptr} {ts : Bytes} (hs : x.mem.text s = some ts) (removeEmpty : Bool)
    {e : Sect} (he : e ∈ x.sections) (hsame : sameName (tx x.mem e.name) ts = true) {A : List Key} {q q2 : Key} {B : List Key}
    (hkeys : e.keys = A ++ q :: q2 :: B) {n : Nat} (hq : q.name = .own n) (hfirst : (named x.mem (tx x.mem q.name) e.keys).head? = some q) :
    delete s (some q.name) removeEmpty x = .error .useAfterFree := by
  obtain ⟨lo, after, hsec, hlow, hhit⟩ := section_at hx hs he hsame
  have hqm : q ∈ e.keys := by rw [hkeys]; simp
  have hk : x.mem.text q.name = some (tx x.mem q.name) := (hx.held q.name (mem_ptrs_key he hqm (by simp [Key.ptrs, Key.strings]))).text
  obtain ⟨A', q', B', hkeys', hlow2, hhit2, hhd⟩ := key_at hx hk he (by intro h; rw [h] at hfirst; cases hfirst)
  rw [hfirst] at hhd
  cases hhd
  -- the same place: its own strings occur once
  have hnd : (ids (e.keys.flatMap Key.ptrs)).Nodup := by
    refine hx.nodup.sublist (ids_sublist ?_)
    refine List.Sublist.trans ?_ (List.sublist_append_right _ _)
    rw [hsec, List.flatMap_append, List.flatMap_cons]
    refine List.Sublist.trans ?_ (List.sublist_append_right _ _)
    refine List.Sublist.trans ?_ (List.sublist_append_left _ _)
    exact List.sublist_append_right _ _
  have hB : B' = q2 :: B := by
    have hone : ∀ (a b : List Key), e.keys = a ++ q :: b → q ∉ a := by
      intro a b hab hqa
      rw [hab, List.flatMap_append, ids_append, List.nodup_append] at hnd
      refine hnd.2.2 n ?_ n ?_ rfl
      · rw [mem_ids, List.mem_flatMap]; exact ⟨q, hqa, by rw [← hq]; simp [Key.ptrs, Key.strings]⟩
      · rw [mem_ids, List.mem_flatMap]; exact ⟨q, by simp, by rw [← hq]; simp [Key.ptrs, Key.strings]⟩
    have h1 := hone _ _ hkeys
    have h2 := hone _ _ hkeys'
    have heq : A ++ q :: q2 :: B = A' ++ q :: B' := hkeys.symm.trans hkeys'
    rcases List.append_eq_append_iff.mp heq with ⟨c, rfl, hc⟩ | ⟨c, rfl, hc⟩
    · cases c with
      | nil => simpa using hc.symm
      | cons d c => simp at hc; exact absurd (by simp [hc.1]) h2
    · cases c with
      | nil => simpa using hc
      | cons d c => simp at hc; exact absurd (by simp [hc.1]) h1
  subst hB
  obtain ⟨m1, m2, d1, d2, o2, f2, _, s2⟩ := deleteKey_ok hx.mem q
  have hnone : m2.text q.name = none := by
    rw [hq]
    refine text_none o2 fun hm => (s2 n hm).2 ?_
    rw [mem_ids, ← hq]; simp [Key.strings]
  unfold delete
  simp only [bind, Except.bind]
  rw [hlow]
  simp only
  rw [hhit]
  simp only
  rw [hlow2]
  simp only
  rw [hhit2]
  simp only [if_true]
  unfold deleteRun
  simp only [bind, Except.bind]
  rw [d1]
  simp only
  rw [d2]
  simp only [hit, read, hnone, bind, Except.bind]

end Licensecc.IniHeap
