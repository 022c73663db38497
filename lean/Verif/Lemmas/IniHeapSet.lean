import Verif.Lemmas.IniHeap
/-!
# Lemmas about the memory of INI objects: setting a key
-/
namespace Licensecc.IniHeap
open Ini hiding getValue setKey load
open IniStore (Options insertBy SortedS SortedW)
open IniMem (less)

/-- The keys of that name. -/
def named (m : Mem) (t : Bytes) (keys : List Key) : List Key := keys.filter fun e => sameName (tx m e.name) t

theorem view_named (m : Mem) (t : Bytes) (keys : List Key) : IniStore.keysNamed t (keys.map (viewKey m)) = (named m t keys).map (viewKey m) := by
  unfold IniStore.keysNamed named
  rw [List.filter_map]
  rfl

theorem view_notNamed (m : Mem) (t : Bytes) (keys : List Key) :
    IniStore.keysNotNamed t (keys.map (viewKey m)) = (keys.filter fun e => !sameName (tx m e.name) t).map (viewKey m) := by
  unfold IniStore.keysNotNamed
  rw [List.filter_map]
  rfl

theorem sortedW_view {m : Mem} {keys : List Key} (h : SortedW IniStore.Key.name (keys.map (viewKey m))) : SortedW (fun e : Key => tx m e.name) keys := by
  unfold SortedW at *
  rw [List.pairwise_map] at h
  exact h

/-- What a forced replacement releases: names and values of the keys of that name. -/
def released (o : Options) (m : Mem) (force : Bool) (t : Bytes) (keys : List Key) : List Nat :=
  if o.multiKey && force then ids ((named m t keys).flatMap Key.strings) else []

theorem replaceFirst_split {k v : Bytes} : ∀ {l : List IniStore.Key}, SortedW IniStore.Key.name l →
    ∀ {e : IniStore.Key} {r : List IniStore.Key}, l.dropWhile (fun e => less e.name k) = e :: r → sameName e.name k = true →
    IniStore.replaceFirst k v l = l.takeWhile (fun e => less e.name k) ++ { e with value := v } :: r
  | [], _, e, r, h, _ => by simp at h
  | a :: l, hs, e, r, h, he => by
    rw [List.dropWhile_cons] at h
    rw [List.takeWhile_cons]
    unfold IniStore.replaceFirst
    by_cases ha : less a.name k = true
    · rw [if_pos ha] at h
      rw [if_pos ha, if_neg (by rw [IniStore.less_not_same ha]; simp)]
      rw [replaceFirst_split (List.pairwise_cons.mp hs).2 h he]
      rfl
    · rw [if_neg ha] at h
      rw [if_neg ha]
      cases h
      rw [if_pos he]
      rfl

theorem setKey_ok (o : Options) {m : Mem} (hm : MemOk m) {s k v : Ptr} {c : Option Ptr} {force copy : Bool} (n : Nat) {keys : List Key} {ts tk tv : Bytes}
    (hs : m.text s = some ts) (hk : m.text k = some tk) (hv : m.text v = some tv) (hc : ∀ p, c = some p → Held m p)
    (hcs : ∀ i, c = some (.own i) → s ≠ .own i ∧ k ≠ .own i ∧ v ≠ .own i)
    (hcopy : copy = false → (∃ i u, k = .block i u) ∧ ∃ i u, v = .block i u)
    (hheld : ∀ e ∈ keys, ∀ p ∈ e.ptrs, Held m p) (hd : (ids (c.toList ++ keys.flatMap Key.ptrs)).Nodup)
    (hsort : SortedW IniStore.Key.name (keys.map (viewKey m)))
    (halias : o.multiKey = true → force = true → ∀ e ∈ named m tk keys, k ∉ e.strings ∧ v ∉ e.strings) :
    ∃ b keys' m', setKey o s k v c force copy n keys m = .ok (b, keys', m') ∧ MemOk m'
      ∧ Frame (ids c.toList ++ released o m force tk keys) m m'
      ∧ (b, keys'.map (viewKey m')) = IniStore.setKey o tk tv (c.map (tx m)) force n (keys.map (viewKey m))
      ∧ KeysAfter copy m m' c keys keys' := by
  have hsort' := sortedW_view hsort
  obtain ⟨sp1, sp2⟩ := sorted_split hsort' tk
  have hN : ∀ e ∈ keys, m.text e.name = some (tx m e.name) := fun e he => (hheld e he e.name (by simp [Key.ptrs, Key.strings])).text
  have hdrop : ∀ e ∈ keys.dropWhile (fun e => less (tx m e.name) tk), e ∈ keys := fun e he => (List.dropWhile_sublist _).subset he
  have hfirst := first_iff hsort' tk
  have hlow := lower_ok (name := Key.name) (N := fun e : Key => tx m e.name) hk hN
  have hhit := hit_ok (name := Key.name) (N := fun e : Key => tx m e.name) (l := keys.dropWhile (fun e => less (tx m e.name) tk)) hk
    fun e he => hN e (hdrop e (List.mem_of_mem_head? he))
  have hkn : IniStore.keysNamed tk (keys.map (viewKey m)) = [] ↔ first (fun e : Key => tx m e.name) tk (keys.dropWhile (fun e => less (tx m e.name) tk)) = false := by
    rw [view_named, List.map_eq_nil_iff]
    unfold named
    rw [← Bool.not_eq_true, hfirst]
    simp
  unfold setKey
  rw [hlow]
  simp only [bind, Except.bind]
  rw [hhit]
  simp only
  unfold IniStore.setKey
  by_cases hb1 : (first (fun e : Key => tx m e.name) tk (keys.dropWhile (fun e => less (tx m e.name) tk)) && o.multiKey && force) = true
  · -- forced replacement
    rw [if_pos hb1]
    simp only [Bool.and_eq_true] at hb1
    obtain ⟨⟨hfo, hmk⟩, hfc⟩ := hb1
    have hne : IniStore.keysNamed tk (keys.map (viewKey m)) ≠ [] := by
      intro h; rw [hkn.mp h] at hfo; cases hfo
    rw [if_neg hne, if_pos (by rw [hmk, hfc]; rfl)]
    rw [oldest_ok (N := fun e : Key => tx m e.name) hk _ _ fun e he => hN e (hdrop e he)]
    simp only
    rw [← sp1]
    have hrun : keys.filter (fun e => sameName (tx m e.name) tk) = named m tk keys := rfl
    rw [hrun]
    have hview : IniStore.oldest n (IniStore.keysNamed tk (keys.map (viewKey m)))
        = (((named m tk keys).foldl (fun acc e => if e.order < acc.1 then (e.order, e.comment) else acc) (n, (none : Option Ptr))).1,
           ((named m tk keys).foldl (fun acc e => if e.order < acc.1 then (e.order, e.comment) else acc) (n, (none : Option Ptr))).2.map (tx m)) := by
      unfold IniStore.oldest
      rw [view_named]
      exact foldl_oldest m (named m tk keys) (n, none)
    rw [hview]
    simp only
    generalize hold : (named m tk keys).foldl (fun acc e => if e.order < acc.1 then (e.order, e.comment) else acc) (n, (none : Option Ptr)) = old
    have holdmem : ∀ p, old.2 = some p → ∃ e ∈ keys, e.comment = some p := by
      intro p hp
      rw [← hold] at hp
      rcases oldest_comment _ _ p hp with h | ⟨e, he, h⟩
      · cases h
      · exact ⟨e, (List.mem_filter.mp he).1, h⟩
    have hdc : ∀ p, c = some p → ∀ e ∈ keys, p ∈ e.ptrs → ∀ i, p ≠ .own i := by
      intro p hp e he hpe i hi
      rw [ids_append, List.nodup_append] at hd
      exact hd.2.2 i (by rw [mem_ids]; rw [hp]; simp [hi]) i (by rw [mem_ids, List.mem_flatMap]; exact ⟨e, he, hi ▸ hpe⟩) rfl
    -- the comment
    have hkeep : ∃ c' m', keepComment m c old.2 = .ok (c', m') ∧ MemOk m' ∧ Frame (ids c.toList) m m' ∧ (∀ p, c' = some p → Held m' p)
        ∧ c'.map (tx m') = (old.2.or c).map (tx m) ∧ ((c' = c ∧ m' = m) ∨ ∃ i, c' = some (.own i) ∧ m.next ≤ i ∧ i < m'.next) := by
      by_cases hce : ∃ p, old.2 = some p ∧ c = some p
      · -- the same string can only be one of a block
        obtain ⟨p, h1, h2⟩ := hce
        obtain ⟨e, he, hec⟩ := holdmem p h1
        have hph := hheld e he p (by simp [Key.ptrs, hec])
        have hno := hdc p h2 e he (by simp [Key.ptrs, hec])
        have hids : ids c.toList = [] := by
          rw [h2]
          cases p with
          | caller t => rfl
          | block b t => rfl
          | own i => exact absurd rfl (hno i)
        obtain ⟨m2, e2, o2, f2, t2, n2, _⟩ := copyString_ok hm hph.text
        refine ⟨some (.own m.next), m2, ?_, o2, by rw [hids]; exact f2, ?_, ?_, ?_⟩
        · rw [h1, h2]
          unfold keepComment deleteStringOpt
          simp only
          have : deleteString m p = .ok m := by
            cases p with
            | caller t => rfl
            | block b t => rfl
            | own i => exact absurd rfl (hno i)
          rw [this]
          simp only [bind, Except.bind, e2]
        · intro q hq; cases hq; exact ⟨by simp, _, t2⟩
        · rw [h1]; simp [tx_eq t2]
        · exact .inr ⟨m.next, rfl, by omega, by omega⟩
      · refine keepComment_ok hm (fun p hp => ?_) hc
        obtain ⟨e, he, hec⟩ := holdmem p hp
        exact ⟨hheld e he p (by simp [Key.ptrs, hec]), fun h => hce ⟨p, hp, h⟩⟩
    obtain ⟨c1, m1, e1, o1, f1, h1, v1, n1⟩ := hkeep
    rw [e1]
    simp only
    -- nothing else is touched
    have hfree : ∀ e ∈ keys, ∀ p ∈ e.ptrs, ∀ i ∈ ids c.toList, p ≠ .own i := by
      intro e he p hp i hi hh
      rw [mem_ids] at hi
      have hci : c = some (.own i) := by simpa using hi
      exact hdc _ hci e he (hh ▸ hp) i rfl
    have harg : ∀ p : Ptr, (∀ i, c = some (.own i) → p ≠ .own i) → ∀ i ∈ ids c.toList, p ≠ .own i := by
      intro p hp i hi
      exact hp i (by rw [mem_ids] at hi; simpa using hi)
    have hs1 : m1.text s = some ts := f1.text s ts hs (harg s fun i hi => (hcs i hi).1)
    have hk1 : m1.text k = some tk := f1.text k tk hk (harg k fun i hi => (hcs i hi).2.1)
    have hv1 : m1.text v = some tv := f1.text v tv hv (harg v fun i hi => (hcs i hi).2.2)
    have hN1 : ∀ e ∈ keys, m1.text e.name = some (tx m e.name) := fun e he =>
      f1.text _ _ (hN e he) (hfree e he e.name (by simp [Key.ptrs, Key.strings]))
    have hheld1 : ∀ e ∈ keys, ∀ p ∈ e.ptrs, Held m1 p := fun e he p hp => (hheld e he p hp).frame f1 (hfree e he p hp)
    rw [read_ok hs1]
    simp only
    rw [lower_ok (name := Key.name) (N := fun e : Key => tx m e.name) hk1 hN1]
    simp only
    have hdk : (ids (keys.flatMap Key.ptrs)).Nodup := by
      rw [ids_append, List.nodup_append] at hd; exact hd.2.1
    have hdks : (ids (keys.flatMap Key.strings)).Nodup := hdk.sublist (ids_sublist (strings_sublist keys))
    obtain ⟨m2, e2, o2, f2, n2, _⟩ := deleteRun_ok (N := fun e : Key => tx m e.name) (k := k) (t := tk) (keys.dropWhile (fun e => less (tx m e.name) tk)) m1 o1
      (fun e he => hN1 e (hdrop e he)) hk1 (hdks.sublist (ids_sublist (flatMap_sublist (List.dropWhile_sublist _)))) (fun _ => hfo)
      (fun e he => (halias hmk hfc e (by rw [← hrun, sp1]; exact he)).1)
    rw [e2]
    simp only
    rw [← sp1, hrun] at f2
    rw [← sp2]
    -- what remains
    have hrest : ∀ e ∈ keys.filter (fun e => !sameName (tx m e.name) tk), e ∈ keys := fun e he => (List.mem_filter.mp he).1
    have hrestsub : (keys.filter (fun e => !sameName (tx m e.name) tk)).Sublist keys := List.filter_sublist
    -- strings of what remains are not released
    have hsep : ∀ e ∈ keys.filter (fun e => !sameName (tx m e.name) tk), ∀ p ∈ e.ptrs, ∀ i ∈ ids ((named m tk keys).flatMap Key.strings), p ≠ .own i := by
      have hperm : (named m tk keys ++ keys.filter (fun e => !sameName (tx m e.name) tk)).Perm keys := List.filter_append_perm _ _
      have hnd := (ids_perm (hperm.flatMap_right Key.ptrs)).nodup_iff.mpr hdk
      rw [List.flatMap_append, ids_append, List.nodup_append] at hnd
      intro e he p hp i hi hh
      refine hnd.2.2 i ((ids_sublist (strings_sublist _)).subset hi) i ?_ rfl
      rw [mem_ids, List.mem_flatMap]
      exact ⟨e, he, hh ▸ hp⟩
    have hargs : ∀ p : Ptr, (∀ e ∈ named m tk keys, p ∉ e.strings) → ∀ i ∈ ids ((named m tk keys).flatMap Key.strings), p ≠ .own i := by
      intro p hp i hi hh
      rw [mem_ids, List.mem_flatMap] at hi
      obtain ⟨e, he, h⟩ := hi
      exact hp e he (hh ▸ h)
    have hk2 : m2.text k = some tk := f2.text k tk hk1 (hargs k fun e he => (halias hmk hfc e he).1)
    have hv2 : m2.text v = some tv := f2.text v tv hv1 (hargs v fun e he => (halias hmk hfc e he).2)
    have hheld2 : ∀ e ∈ keys.filter (fun e => !sameName (tx m e.name) tk), ∀ p ∈ e.ptrs, Held m2 p :=
      fun e he p hp => (hheld1 e (hrest e he) p hp).frame f2 (hsep e he p hp)
    -- the comment survives
    have hc1sep : ∀ p, c1 = some p → ∀ i ∈ ids ((named m tk keys).flatMap Key.strings), p ≠ .own i := by
      intro p hp i hi hh
      have hi' : i ∈ ids (keys.flatMap Key.ptrs) :=
        (ids_sublist ((strings_sublist _).trans (flatMap_sublist List.filter_sublist))).subset hi
      rcases n1 with ⟨rfl, _⟩ | ⟨j, hj, hj1, _⟩
      · rw [ids_append, List.nodup_append] at hd
        exact hd.2.2 i (by rw [mem_ids, hp]; simp [hh]) i hi' rfl
      · rw [hj] at hp
        cases hp
        cases hh
        rw [mem_ids, List.mem_flatMap] at hi'
        obtain ⟨e, he, hpe⟩ := hi'
        obtain ⟨t, ht⟩ := (hheld e he _ hpe).2
        have := text_bound hm ht
        omega
    have hc2 : ∀ p, c1 = some p → Held m2 p := fun p hp => (h1 p hp).frame f2 (hc1sep p hp)
    have hd2 : (ids (c1.toList ++ (keys.filter (fun e => !sameName (tx m e.name) tk)).flatMap Key.ptrs)).Nodup := by
      rcases n1 with ⟨rfl, _⟩ | ⟨j, hj, hj1, _⟩
      · exact hd.sublist (ids_sublist ((List.Sublist.refl _).append (flatMap_sublist hrestsub)))
      · rw [ids_append, List.nodup_append]
        refine ⟨by rw [hj]; exact List.nodup_cons.mpr ⟨by simp, .nil⟩, hdk.sublist (ids_sublist (flatMap_sublist hrestsub)), ?_⟩
        intro a ha b hb e
        subst e
        rw [mem_ids, hj] at ha
        simp at ha
        subst ha
        rw [mem_ids, List.mem_flatMap] at hb
        obtain ⟨e, he, hpe⟩ := hb
        obtain ⟨t, ht⟩ := (hheld e (hrest e he) _ hpe).2
        have := text_bound hm ht
        omega
    obtain ⟨keys', m3, e3, o3, f3, v3, a3⟩ := insertKey_ok o2 old.1 hk2 hv2 hc2 hcopy hheld2 hd2
    refine ⟨true, keys', m3, e3, o3, ?_, ?_, ?_⟩
    · have := (f1.trans f2).trans f3
      unfold released
      rw [hmk, hfc]
      simpa using this
    · rw [v3, view_notNamed]
      have hcv : c1.map (tx m2) = (old.2.map (tx m)).or (c.map (tx m)) := by
        have : c1.map (tx m2) = c1.map (tx m1) := by
          cases hc1 : c1 with
          | none => rfl
          | some p => simp only [Option.map_some]; rw [tx_frame (h1 p hc1) f2 (hc1sep p hc1)]
        rw [this, v1]
        cases old.2 <;> rfl
      rw [hcv]
      refine congrArg _ (congrArg _ (List.map_congr_left fun e he => ?_))
      rw [viewKey_frame (hheld1 e (hrest e he)) f2 (fun i hi hp => hsep e he _ hp i hi rfl)]
      exact viewKey_frame (hheld e (hrest e he)) f1 (fun i hi hp => hfree e (hrest e he) _ hp i hi rfl)
    · have hnext : m.next ≤ m2.next := Nat.le_trans f1.next (by omega)
      refine ⟨a3.held, a3.nodup, ?_, ?_⟩
      · intro p hp
        rcases a3.src p hp with h | h
        · rcases List.mem_append.mp h with h | h
          · rcases n1 with ⟨rfl, _⟩ | ⟨j, hj, hj1, hj2⟩
            · exact .inl (List.mem_append_left _ h)
            · rw [hj] at h
              simp at h
              subst h
              right
              have := f3.next
              refine ⟨fun i hi => ?_, fun _ => ⟨_, rfl⟩⟩
              cases hi
              omega
          · exact .inl (List.mem_append_right _ ((flatMap_sublist hrestsub).subset h))
        · exact .inr (h.mono (by omega) (Nat.le_refl _))
      · intro e he
        rcases a3.origin e he with ⟨e0, he0, h, h'⟩ | ⟨h, h'⟩
        · refine .inl ⟨e0, hrest e0 he0, h, ?_⟩
          rcases h' with h' | h'
          · exact .inl h'
          · exact .inr fun i hi => Nat.le_trans hnext (h' i hi)
        · exact .inr ⟨fun i hi => Nat.le_trans hnext (h i hi), fun i hi => Nat.le_trans hnext (h' i hi)⟩
  · rw [if_neg hb1]
    by_cases hb2 : ((o.multiKey && !force) || !(first (fun e : Key => tx m e.name) tk (keys.dropWhile (fun e => less (tx m e.name) tk)))) = true
    · -- a new entry
      rw [if_pos hb2]
      obtain ⟨keys', m', e', o', f', v', a'⟩ := insertKey_ok hm n hk hv hc hcopy hheld hd
      refine ⟨true, keys', m', e', o', f'.mono (by simp), ?_, a'⟩
      rw [v']
      by_cases hne : IniStore.keysNamed tk (keys.map (viewKey m)) = []
      · rw [if_pos hne]
      · rw [if_neg hne]
        have hfo : first (fun e : Key => tx m e.name) tk (keys.dropWhile (fun e => less (tx m e.name) tk)) = true := by
          cases h : first (fun e : Key => tx m e.name) tk (keys.dropWhile (fun e => less (tx m e.name) tk)) with
          | true => rfl
          | false => exact absurd (hkn.mpr h) hne
        rw [hfo] at hb1 hb2
        have hmf : o.multiKey = true ∧ force = false := by
          cases hmk : o.multiKey <;> cases hfc : force <;> simp_all
        rw [if_neg (by rw [hmf.1, hmf.2]; simp), if_pos hmf.1]
    · -- another value for the entry found
      rw [if_neg hb2]
      have hfo : first (fun e : Key => tx m e.name) tk (keys.dropWhile (fun e => less (tx m e.name) tk)) = true := by
        cases h : first (fun e : Key => tx m e.name) tk (keys.dropWhile (fun e => less (tx m e.name) tk)) with
        | true => rfl
        | false => rw [h] at hb2; simp at hb2
      have hmk : o.multiKey = false := by
        rw [hfo] at hb1 hb2
        cases hmk : o.multiKey <;> cases hfc : force <;> simp_all
      have hne : IniStore.keysNamed tk (keys.map (viewKey m)) ≠ [] := by
        intro h; rw [hkn.mp h] at hfo; cases hfo
      rw [if_neg hne, if_neg (by rw [hmk]; simp), if_neg (by rw [hmk]; simp)]
      obtain ⟨v', m1, e1, o1, f1, t1, h1, n1, b1, cp1⟩ := copyIf_ok hm hv fun h => (hcopy h).2
      rw [e1]
      simp only
      cases hr : keys.dropWhile (fun e => less (tx m e.name) tk) with
      | nil => rw [hr] at hfo; cases hfo
      | cons e l =>
        simp only
        have hkeys : keys = keys.takeWhile (fun e => less (tx m e.name) tk) ++ e :: l := by
          conv => lhs; rw [← List.takeWhile_append_dropWhile (p := fun e : Key => less (tx m e.name) tk) (l := keys), hr]
        generalize hA : keys.takeWhile (fun e => less (tx m e.name) tk) = A at *
        have hesame : sameName (tx m e.name) tk = true := by
          rw [hr] at hfo
          refine IniStore.same_iff.mpr ⟨?_, by simpa [first] using hfo⟩
          exact dropWhile_lower hsort' e (by rw [hr]; simp)
        have hheld1 : ∀ e ∈ keys, ∀ p ∈ e.ptrs, Held m1 p := fun e he p hp => (hheld e he p hp).frame f1 (by simp)
        have hmemA : ∀ x ∈ A, x ∈ keys := fun x hx => by rw [hkeys]; simp [hx]
        have hmeml : ∀ x ∈ l, x ∈ keys := fun x hx => by rw [hkeys]; simp [hx]
        have hmeme : e ∈ keys := by rw [hkeys]; simp
        have hold : ∀ i ∈ ids (keys.flatMap Key.ptrs), i < m.next := by
          intro i hi
          rw [mem_ids, List.mem_flatMap] at hi
          obtain ⟨e, he, hp⟩ := hi
          obtain ⟨t, ht⟩ := (hheld e he _ hp).2
          exact text_bound hm ht
        have hdk : (ids (keys.flatMap Key.ptrs)).Nodup := by
          rw [ids_append, List.nodup_append] at hd; exact hd.2.1
        have hsub : (A.flatMap Key.ptrs ++ (e.name :: e.comment.toList ++ l.flatMap Key.ptrs)).Sublist (keys.flatMap Key.ptrs) := by
          rw [hkeys, List.flatMap_append, List.flatMap_cons]
          refine (List.Sublist.refl _).append ?_
          unfold Key.ptrs Key.strings
          simp
        have hperm : ((A ++ { e with value := v' } :: l).flatMap Key.ptrs).Perm
            (v' :: (A.flatMap Key.ptrs ++ (e.name :: e.comment.toList ++ l.flatMap Key.ptrs))) := by
          rw [List.flatMap_append, List.flatMap_cons]
          unfold Key.ptrs Key.strings
          simp only [List.cons_append, List.nil_append]
          have h1 : (e.name :: v' :: (e.comment.toList ++ l.flatMap Key.ptrs)).Perm (v' :: e.name :: (e.comment.toList ++ l.flatMap Key.ptrs)) := .swap _ _ _
          exact (h1.append_left _).trans List.perm_middle
        refine ⟨false, A ++ { e with value := v' } :: l, m1, rfl, o1, f1.mono (by simp), ?_, ?_, ?_, ?_, ?_⟩
        · have hdw : (keys.map (viewKey m)).dropWhile (fun e => less e.name tk) = viewKey m e :: l.map (viewKey m) := by
            rw [List.dropWhile_map]
            have : (fun e => less e.name tk) ∘ viewKey m = fun e => less (tx m e.name) tk := rfl
            rw [this, hr]; rfl
          have htw : (keys.map (viewKey m)).takeWhile (fun e => less e.name tk) = A.map (viewKey m) := by
            rw [List.takeWhile_map]
            have : (fun e => less e.name tk) ∘ viewKey m = fun e => less (tx m e.name) tk := rfl
            rw [this, hA]
          rw [replaceFirst_split hsort hdw hesame, htw, List.map_append, List.map_cons]
          refine congrArg (Prod.mk false) ?_
          have e1 : A.map (viewKey m1) = A.map (viewKey m) := List.map_congr_left fun x hx => viewKey_frame (hheld x (hmemA x hx)) f1 (by simp)
          have e2 : l.map (viewKey m1) = l.map (viewKey m) := List.map_congr_left fun x hx => viewKey_frame (hheld x (hmeml x hx)) f1 (by simp)
          rw [e1, e2]
          refine congrArg _ (congrArg (· :: _) ?_)
          have e3 := viewKey_frame (m' := m1) (hheld e hmeme) f1 (by simp)
          unfold viewKey at e3 ⊢
          simp only [IniStore.Key.mk.injEq] at e3 ⊢
          exact ⟨e3.1, e3.2.1, trivial, tx_eq t1⟩
        · intro x hx p hp
          rcases List.mem_append.mp hx with hx | hx
          · exact hheld1 x (hmemA x hx) p hp
          · rcases List.mem_cons.mp hx with rfl | hx
            · simp [Key.ptrs, Key.strings] at hp
              rcases hp with rfl | rfl | hp
              · exact hheld1 e hmeme _ (by simp [Key.ptrs, Key.strings])
              · exact h1
              · exact hheld1 e hmeme _ (by simp [Key.ptrs, Key.strings, hp])
            · exact hheld1 x (hmeml x hx) p hp
        · rw [(ids_perm hperm).nodup_iff, ids_cons, List.nodup_append]
          refine ⟨?_, hdk.sublist (ids_sublist hsub), ?_⟩
          · cases v' with
            | caller t => exact .nil
            | block b t => exact .nil
            | own i => exact List.nodup_cons.mpr ⟨by simp, .nil⟩
          · intro a ha b hb hab
            rw [mem_ids] at ha
            have := n1 a (by simpa using ha : Ptr.own a = v').symm
            have := hold b ((ids_sublist hsub).subset hb)
            omega
        · intro p hp
          rcases List.mem_cons.mp (hperm.mem_iff.mp hp) with rfl | hp
          · exact .inr ⟨fun i hi => ⟨n1 i hi, b1 i hi⟩, cp1⟩
          · exact .inl (List.mem_append_right _ (hsub.subset hp))
        · intro x hx
          rcases List.mem_append.mp hx with hx | hx
          · exact .inl ⟨x, hmemA x hx, rfl, .inl rfl⟩
          · rcases List.mem_cons.mp hx with rfl | hx
            · exact .inl ⟨e, hmeme, rfl, .inr n1⟩
            · exact .inl ⟨x, hmeml x hx, rfl, .inl rfl⟩

end Licensecc.IniHeap
