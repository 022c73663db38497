import Verif.Lemmas.IniHeapAdd
/-!
# Lemmas about the memory of INI objects: `Delete`, `Reset`, `LoadData`
-/
namespace Licensecc.IniHeap
open Ini hiding getValue setKey load
open IniStore (Options insertBy SortedS SortedW Inv)
open IniMem (less)

/-- Parts of the object are removed. -/
theorem shrink_ok {x : Obj} (hx : ObjOk x) {D : List Nat} {m : Mem} (hf : Frame D x.mem m) {sections : List Sect}
    (hsub : (sections.flatMap Sect.ptrs).Sublist (x.sections.flatMap Sect.ptrs))
    (hD : ∀ n ∈ D, Ptr.own n ∉ x.fileComment.toList ++ sections.flatMap Sect.ptrs) :
    (let x' : Obj := { x with mem := m, sections := sections };
      (∀ p ∈ x'.ptrs, Held m p) ∧ (ids x'.ptrs).Nodup ∧ view x' = { view x with sections := sections.map (viewSect x.mem) }) := by
  have hsub' : (x.fileComment.toList ++ sections.flatMap Sect.ptrs).Sublist x.ptrs := (List.Sublist.refl _).append hsub
  have hh : ∀ p ∈ x.fileComment.toList ++ sections.flatMap Sect.ptrs, Held x.mem p := fun p hp => hx.held p (hsub'.subset hp)
  refine ⟨fun p hp => (hh p hp).frame hf fun n hn e => hD n hn (e ▸ hp), hx.nodup.sublist (ids_sublist hsub'), ?_⟩
  unfold view
  simp only
  rw [map_tx_frame (fun p hp => hh p (by simp [hp])) hf fun p hp i hi e => hD i hi (by rw [← e]; simp [hp])]
  rw [List.map_congr_left fun e he => viewSect_frame (fun p hp => hh p (List.mem_append_right _ (List.mem_flatMap.mpr ⟨e, he, hp⟩))) hf
    fun i hi hp => hD i hi (List.mem_append_right _ (List.mem_flatMap.mpr ⟨e, he, hp⟩))]

/-- What `Delete` may release: in the sections of that name, the name, and names and values of the keys of that name or of all keys. -/
def deletedObj (x : Obj) (ts : Bytes) (tk : Option Bytes) : List Nat :=
  ids ((x.sections.filter fun e => sameName (tx x.mem e.name) ts).flatMap fun e =>
    e.name :: (match tk with | none => e.keys | some t => named x.mem t e.keys).flatMap Key.strings)

theorem mem_deletedObj {x : Obj} {ts : Bytes} {tk : Option Bytes} {e : Sect} (he : e ∈ x.sections) (hsame : sameName (tx x.mem e.name) ts = true) :
    (∀ i ∈ ids [e.name], i ∈ deletedObj x ts tk)
    ∧ (∀ i ∈ ids ((match tk with | none => e.keys | some t => named x.mem t e.keys).flatMap Key.strings), i ∈ deletedObj x ts tk) := by
  constructor
  · intro i hi
    have h := mem_ids_one hi
    unfold deletedObj
    rw [mem_ids, List.mem_flatMap]
    exact ⟨e, List.mem_filter.mpr ⟨he, hsame⟩, by simp [h]⟩
  · intro i hi
    unfold deletedObj
    rw [mem_ids] at hi
    rw [mem_ids, List.mem_flatMap]
    exact ⟨e, List.mem_filter.mpr ⟨he, hsame⟩, List.mem_cons_of_mem _ hi⟩

theorem delete_ok (copy : Bool) {x : Obj} (hx : ObjOk x) {s : Ptr} {k : Option Ptr} {removeEmpty : Bool} {ts : Bytes}
    (hs : x.mem.text s = some ts) (hk : ∀ p, k = some p → ∃ t, x.mem.text p = some t)
    (halias : ∀ p, k = some p → ∀ e ∈ x.sections, sameName (tx x.mem e.name) ts = true →
      ∀ q ∈ named x.mem (tx x.mem p) e.keys, p ∉ q.strings) :
    ∃ b x', delete s k removeEmpty x = .ok (b, x')
      ∧ (b, view x') = IniStore.delete ts (k.map (tx x.mem)) removeEmpty (view x)
      ∧ After copy x x' (deletedObj x ts (k.map (tx x.mem)))
      ∧ ∀ e ∈ x.sections, sameName (tx x.mem e.name) ts = true →
        (∀ i ∈ ids ((match k.map (tx x.mem) with | none => e.keys | some t => named x.mem t e.keys).flatMap Key.strings), i ∉ x'.mem.strings)
        ∧ (e.name ∉ x'.sections.map Sect.name → ∀ i, e.name = .own i → i ∉ x'.mem.strings) := by
  have hN := hN_sections hx
  have hinv := hx.inv.delete ts (k.map (tx x.mem)) removeEmpty
  unfold delete
  rw [lower_ok (N := fun e : Sect => tx x.mem e.name) hs hN]
  simp only [bind, Except.bind]
  rw [hit_ok (N := fun e : Sect => tx x.mem e.name) hs fun e he => hN e ((List.dropWhile_sublist _).subset (List.mem_of_mem_head? he))]
  simp only
  cases hfo : first (fun e : Sect => tx x.mem e.name) ts (x.sections.dropWhile (fun e => less (tx x.mem e.name) ts)) with
  | false =>
    simp only
    have hfind : IniStore.findSection (view x) ts = none := by
      unfold IniStore.findSection view
      rw [List.find?_eq_none]
      intro a ha
      obtain ⟨b, hb, rfl⟩ := List.mem_map.mp ha
      show ¬ sameName (tx x.mem b.name) ts = true
      rw [(not_found (sortedS_sections hx) hfo).1 b hb]; simp
    refine ⟨false, x, rfl, ?_, ⟨hx, Frame.refl _ _, OriginObj.self fun e he => ⟨e, he, rfl, fun _ h => h⟩, fun _ p hp => .inl hp⟩, ?_⟩
    · unfold IniStore.delete
      rw [hfind]
    · intro e he hsame
      rw [(not_found (sortedS_sections hx) hfo).1 e he] at hsame
      cases hsame
  | true =>
    cases hr : x.sections.dropWhile (fun e => less (tx x.mem e.name) ts) with
    | nil => rw [hr] at hfo; cases hfo
    | cons e after =>
      rw [hr] at hfo
      obtain ⟨hfind, hsame, hsec, hlo, haf⟩ := IniStore_findSection_found hx hr hfo
      generalize hA : x.sections.takeWhile (fun e => less (tx x.mem e.name) ts) = lo at *
      have he : e ∈ x.sections := by rw [hsec]; simp
      have huniq : ∀ a ∈ x.sections, sameName (tx x.mem a.name) ts = true → a = e := by
        intro a ha hs
        rw [hsec] at ha
        rcases List.mem_append.mp ha with ha | ha
        · rw [hlo a ha] at hs; cases hs
        · rcases List.mem_cons.mp ha with ha | ha
          · exact ha
          · rw [haf a ha] at hs; cases hs
      -- the strings of the section and the others
      have hnd : (ids ((x.fileComment.toList ++ (lo ++ after).flatMap Sect.ptrs) ++ e.ptrs)).Nodup := by
        refine (ids_perm ?_).nodup_iff.mp hx.nodup
        unfold Obj.ptrs
        rw [hsec, List.flatMap_append, List.flatMap_append, List.flatMap_cons]
        simp only [List.append_assoc]
        exact List.Perm.append_left _ (List.Perm.append_left _ List.perm_append_comm)
      have hsep : ∀ i ∈ ids e.ptrs, Ptr.own i ∉ x.fileComment.toList ++ (lo ++ after).flatMap Sect.ptrs := by
        intro i hi hp
        rw [ids_append, List.nodup_append] at hnd
        exact hnd.2.2 i (mem_ids.mpr hp) i hi rfl
      have hsub : ((lo ++ after).flatMap Sect.ptrs).Sublist (x.sections.flatMap Sect.ptrs) := by
        rw [hsec]
        exact flatMap_sublist ((List.Sublist.refl _).append (List.sublist_cons_self _ _))
      have horig : ∀ m, OriginObj x.mem.next x { x with mem := m, sections := lo ++ after } := fun m =>
        OriginObj.self fun a ha => ⟨a, by
          rw [hsec]
          rcases List.mem_append.mp ha with ha | ha <;> simp [ha], rfl, fun _ h => h⟩
      have hfilter : (view x).sections.filter (fun e => !sameName e.name ts) = (lo ++ after).map (viewSect x.mem) := by
        show (x.sections.map (viewSect x.mem)).filter _ = _
        rw [hsec]
        exact (onSection_found id hsame hlo haf).2
      have hnameid : ∀ i ∈ ids [e.name], i ∈ ids e.ptrs := fun i hi => by
        rw [mem_ids]; simp [Sect.ptrs, mem_ids_one hi]
      simp only
      cases k with
      | none =>
        simp only
        obtain ⟨m1, e1, o1, f1, n1, d1⟩ := deleteAll_ok e.keys x.mem hx.mem
        obtain ⟨m2, e2, o2, f2, n2, d2, g2⟩ := deleteString_ok o1 e.name
        rw [e1]
        simp only
        unfold deleteSection
        rw [e2]
        have hst : IniStore.delete ts none removeEmpty (view x) = (true, { view x with sections := (lo ++ after).map (viewSect x.mem) }) := by
          unfold IniStore.delete
          rw [hfind]
          simp only
          rw [hfilter]
        have hDD : ∀ i ∈ ids (e.keys.flatMap Key.strings) ++ ids [e.name], i ∈ ids e.ptrs := by
          intro i hi
          rcases List.mem_append.mp hi with hi | hi
          · refine (ids_sublist ((strings_sublist _).trans ?_)).subset hi
            exact List.sublist_append_right _ _
          · exact hnameid i hi
        obtain ⟨s1, s2, s3⟩ := shrink_ok hx (f1.trans f2) hsub fun n hn => hsep n (hDD n hn)
        refine ⟨true, _, rfl, ?_, ⟨⟨o2, s1, s2, ?_⟩, (f1.trans f2).mono ?_, horig _, fun _ p hp => .inl (((List.Sublist.refl _).append hsub).subset hp)⟩, ?_⟩
        · rw [s3]; exact hst.symm
        · rw [s3]
          simp only [Option.map_none] at hinv
          rw [hst] at hinv
          exact hinv
        · intro i hi
          rcases List.mem_append.mp hi with hi | hi
          · exact (mem_deletedObj (tk := none) he hsame).2 i hi
          · exact (mem_deletedObj (tk := none) he hsame).1 i hi
        · intro a ha hsa
          rw [huniq a ha hsa]
          exact ⟨fun i hi hm => (d1 i (d2 i hm)).2 hi, fun _ i hi => g2 i (mem_ids.mpr (by simp [hi]))⟩
      | some p =>
        simp only
        obtain ⟨tk, hpk⟩ := hk p rfl
        have htx : tx x.mem p = tk := tx_eq hpk
        have hheld : ∀ q ∈ e.keys, ∀ p ∈ q.ptrs, Held x.mem p := fun q hq p hp => hx.held p (mem_ptrs_key he hq hp)
        have hKN : ∀ q ∈ e.keys, x.mem.text q.name = some (tx x.mem q.name) := fun q hq => (hheld q hq q.name (by simp [Key.ptrs, Key.strings])).text
        have hsortW : SortedW (fun q : Key => tx x.mem q.name) e.keys :=
          sortedW_view (hx.inv.keys (viewSect x.mem e) (List.mem_map.mpr ⟨e, he, rfl⟩)).sorted
        obtain ⟨sp1, sp2⟩ := sorted_split hsortW tk
        have hdrop : ∀ q ∈ e.keys.dropWhile (fun q => less (tx x.mem q.name) tk), q ∈ e.keys := fun q hq => (List.dropWhile_sublist _).subset hq
        rw [lower_ok (N := fun q : Key => tx x.mem q.name) hpk hKN]
        simp only
        rw [hit_ok (N := fun q : Key => tx x.mem q.name) hpk fun q hq => hKN q (hdrop q (List.mem_of_mem_head? hq))]
        simp only
        have hst0 : IniStore.delete ts (some tk) removeEmpty (view x) = if IniStore.keysNamed tk (e.keys.map (viewKey x.mem)) = [] then (false, view x)
            else if !removeEmpty || IniStore.keysNotNamed tk (e.keys.map (viewKey x.mem)) ≠ [] then
              (true, { view x with sections := IniStore.onSection ts (IniStore.keysNotNamed tk) (view x).sections })
            else (true, { view x with sections := (view x).sections.filter fun e => !sameName e.name ts }) := by
          unfold IniStore.delete
          rw [hfind]
          rfl
        have hkn : IniStore.keysNamed tk (e.keys.map (viewKey x.mem)) = [] ↔ first (fun q : Key => tx x.mem q.name) tk (e.keys.dropWhile (fun q => less (tx x.mem q.name) tk)) = false := by
          rw [view_named, List.map_eq_nil_iff]
          unfold named
          rw [← Bool.not_eq_true, first_iff hsortW tk]
          simp
        simp only [Option.map_some, htx] at hinv ⊢
        cases hfk : first (fun q : Key => tx x.mem q.name) tk (e.keys.dropWhile (fun q => less (tx x.mem q.name) tk)) with
        | false =>
          simp only [Bool.false_eq_true, if_false]
          refine ⟨false, x, rfl, ?_, ⟨hx, Frame.refl _ _, OriginObj.self fun e he => ⟨e, he, rfl, fun _ h => h⟩, fun _ p hp => .inl hp⟩, ?_⟩
          · rw [hst0, if_pos (hkn.mpr hfk)]
          · intro a ha hsa
            rw [huniq a ha hsa]
            have hnil : named x.mem tk e.keys = [] := by
              have := hkn.mpr hfk
              rw [view_named, List.map_eq_nil_iff] at this
              exact this
            rw [hnil]
            exact ⟨by simp [ids], fun hno => absurd (List.mem_map.mpr ⟨e, he, rfl⟩) hno⟩
        | true =>
          simp only [if_true]
          have hne : IniStore.keysNamed tk (e.keys.map (viewKey x.mem)) ≠ [] := by
            intro h; rw [hkn.mp h] at hfk; cases hfk
          have hdk : (ids (e.keys.flatMap Key.ptrs)).Nodup := by
            rw [ids_append, List.nodup_append] at hnd
            exact hnd.2.1.sublist (ids_sublist (List.sublist_append_right _ _))
          have hdks : (ids (e.keys.flatMap Key.strings)).Nodup := hdk.sublist (ids_sublist (strings_sublist _))
          have hrun : e.keys.filter (fun q => sameName (tx x.mem q.name) tk) = named x.mem tk e.keys := rfl
          obtain ⟨m1, e1, o1, f1, n1, d1⟩ := deleteRun_ok (N := fun q : Key => tx x.mem q.name) (k := p) (t := tk)
            (e.keys.dropWhile (fun q => less (tx x.mem q.name) tk)) x.mem hx.mem (fun q hq => hKN q (hdrop q hq)) hpk
            (hdks.sublist (ids_sublist (flatMap_sublist (List.dropWhile_sublist _)))) (fun _ => hfk)
            (fun q hq => halias p rfl e he hsame q (by rw [htx, ← hrun, sp1]; exact hq))
          rw [e1]
          simp only
          rw [← sp1, hrun] at f1 d1
          rw [← sp2]
          have hrel : ∀ i ∈ ids ((named x.mem tk e.keys).flatMap Key.strings), i ∈ ids e.ptrs := by
            intro i hi
            refine (ids_sublist ((strings_sublist _).trans ((flatMap_sublist List.filter_sublist).trans ?_))).subset hi
            exact List.sublist_append_right _ _
          have hview' : IniStore.keysNotNamed tk (e.keys.map (viewKey x.mem)) = (e.keys.filter fun q => !sameName (tx x.mem q.name) tk).map (viewKey x.mem) :=
            view_notNamed x.mem tk e.keys
          have hcond : (!removeEmpty || decide (IniStore.keysNotNamed tk (e.keys.map (viewKey x.mem)) ≠ []))
              = (!removeEmpty || decide ((e.keys.filter fun q => !sameName (tx x.mem q.name) tk) ≠ [])) := by
            rw [hview']
            simp
          by_cases hcd : (!removeEmpty || decide ((e.keys.filter fun q => !sameName (tx x.mem q.name) tk) ≠ [])) = true
          · rw [if_pos hcd]
            have hst : IniStore.delete ts (some tk) removeEmpty (view x) = (true, { view x with sections :=
                (lo ++ { e with keys := e.keys.filter fun q => !sameName (tx x.mem q.name) tk } :: after).map (viewSect x.mem) }) := by
              rw [hst0, if_neg hne, if_pos (by rw [hcond]; exact hcd)]
              have : (view x).sections = (lo ++ e :: after).map (viewSect x.mem) := by
                show x.sections.map _ = _; rw [hsec]
              rw [this, (onSection_found _ hsame hlo haf).1, List.map_append, List.map_cons]
              have : (viewSect x.mem e).keys = e.keys.map (viewKey x.mem) := rfl
              rw [this, hview']
              rfl
            have hsub2 : ((lo ++ { e with keys := e.keys.filter fun q => !sameName (tx x.mem q.name) tk } :: after).flatMap Sect.ptrs).Sublist
                (x.sections.flatMap Sect.ptrs) := by
              rw [hsec, List.flatMap_append, List.flatMap_append, List.flatMap_cons, List.flatMap_cons]
              refine (List.Sublist.refl _).append (List.Sublist.append ?_ (List.Sublist.refl _))
              unfold Sect.ptrs
              exact (List.Sublist.refl _).append (flatMap_sublist List.filter_sublist)
            -- the strings released are not among those that remain
            have hsep2 : ∀ i ∈ ids ((named x.mem tk e.keys).flatMap Key.strings), Ptr.own i ∉ x.fileComment.toList ++
                (lo ++ { e with keys := e.keys.filter fun q => !sameName (tx x.mem q.name) tk } :: after).flatMap Sect.ptrs := by
              have hperm : x.ptrs.Perm ((x.fileComment.toList ++
                  (lo ++ { e with keys := e.keys.filter fun q => !sameName (tx x.mem q.name) tk } :: after).flatMap Sect.ptrs)
                  ++ (named x.mem tk e.keys).flatMap Key.ptrs) := by
                have h1 := ptrs_perm x hsec
                have h2 := ptrs_perm { x with sections := lo ++ { e with keys := e.keys.filter fun q => !sameName (tx x.mem q.name) tk } :: after }
                  (e := { e with keys := e.keys.filter fun q => !sameName (tx x.mem q.name) tk }) rfl
                refine h1.trans (List.Perm.trans ?_ (h2.symm.append_right _))
                simp only [List.append_assoc]
                refine List.Perm.append_left _ (List.Perm.append_left _ (List.Perm.append_left _ (List.Perm.append_left _ ?_)))
                rw [← List.flatMap_append]
                refine List.Perm.flatMap_right _ ?_
                exact (List.filter_append_perm (fun q : Key => sameName (tx x.mem q.name) tk) e.keys).symm.trans List.perm_append_comm
              have hnd2 := (ids_perm hperm).nodup_iff.mp hx.nodup
              rw [ids_append, List.nodup_append] at hnd2
              intro i hi hp
              exact hnd2.2.2 i (mem_ids.mpr hp) i ((ids_sublist (strings_sublist _)).subset hi) rfl
            obtain ⟨s1, s2, s3⟩ := shrink_ok hx f1 hsub2 hsep2
            refine ⟨true, _, rfl, ?_, ⟨⟨o1, s1, s2, ?_⟩, f1.mono ?_, ?_, fun _ p hp => .inl (((List.Sublist.refl _).append hsub2).subset hp)⟩, ?_⟩
            · rw [s3]; exact hst.symm
            · rw [s3]
              rw [hst] at hinv
              exact hinv
            · exact fun i hi => (mem_deletedObj (tk := some tk) he hsame).2 i hi
            · refine OriginObj.self fun a ha => ?_
              simp only at ha
              rcases List.mem_append.mp ha with ha | ha
              · exact ⟨a, by rw [hsec]; simp [ha], rfl, fun _ h => h⟩
              · rcases List.mem_cons.mp ha with rfl | ha
                · exact ⟨e, he, rfl, fun q hq => (List.mem_filter.mp hq).1⟩
                · exact ⟨a, by rw [hsec]; simp [ha], rfl, fun _ h => h⟩
            · intro a ha hsa
              rw [huniq a ha hsa]
              exact ⟨fun i hi hm => (d1 i hm).2 hi, fun hno => absurd (by simp) hno⟩
          · rw [if_neg hcd]
            obtain ⟨m2, e2, o2, f2, n2, d2, g2⟩ := deleteString_ok o1 e.name
            unfold deleteSection
            rw [e2]
            have hst : IniStore.delete ts (some tk) removeEmpty (view x) = (true, { view x with sections := (lo ++ after).map (viewSect x.mem) }) := by
              rw [hst0, if_neg hne, if_neg (by rw [hcond]; exact hcd), hfilter]
            have hDD : ∀ i ∈ ids ((named x.mem tk e.keys).flatMap Key.strings) ++ ids [e.name], i ∈ ids e.ptrs := by
              intro i hi
              rcases List.mem_append.mp hi with hi | hi
              · exact hrel i hi
              · exact hnameid i hi
            obtain ⟨s1, s2, s3⟩ := shrink_ok hx (f1.trans f2) hsub fun n hn => hsep n (hDD n hn)
            refine ⟨true, _, rfl, ?_, ⟨⟨o2, s1, s2, ?_⟩, (f1.trans f2).mono ?_, horig _, fun _ p hp => .inl (((List.Sublist.refl _).append hsub).subset hp)⟩, ?_⟩
            · rw [s3]; exact hst.symm
            · rw [s3]
              rw [hst] at hinv
              exact hinv
            · intro i hi
              rcases List.mem_append.mp hi with hi | hi
              · exact (mem_deletedObj (tk := some tk) he hsame).2 i hi
              · exact (mem_deletedObj (tk := some tk) he hsame).1 i hi
            · intro a ha hsa
              rw [huniq a ha hsa]
              exact ⟨fun i hi hm => (d1 i (d2 i hm)).2 hi, fun _ i hi => g2 i (mem_ids.mpr (by simp [hi]))⟩

end Licensecc.IniHeap
