import Verif.Lemmas.IniHeapObj
/-!
# Lemmas about the memory of INI objects: `AddEntry`
-/
namespace Licensecc.IniHeap
open Ini hiding getValue setKey load
open IniStore (Options insertBy SortedS SortedW Inv)
open IniMem (less)

theorem view_frame {x : Obj} (hx : ObjOk x) {D : List Nat} {m : Mem} (hf : Frame D x.mem m) (hD : ∀ n ∈ D, Ptr.own n ∉ x.ptrs) :
    view { x with mem := m } = view x := by
  unfold view
  simp only
  rw [map_tx_frame (fun p hp => hx.held p (by simp [Obj.ptrs, hp])) hf fun p hp i hi hh => hD i hi (by rw [← hh]; simp [Obj.ptrs, hp])]
  rw [List.map_congr_left fun e he => viewSect_frame (fun p hp => hx.held p (mem_ptrs_sect he hp)) hf fun i hi hp => hD i hi (mem_ptrs_sect he hp)]

/-- Memory may change elsewhere. -/
theorem ObjOk.frame {x : Obj} (hx : ObjOk x) {D : List Nat} {m : Mem} (hm : MemOk m) (hf : Frame D x.mem m)
    (hD : ∀ n ∈ D, Ptr.own n ∉ x.ptrs) : ObjOk { x with mem := m } :=
  ⟨hm, fun p hp => (hx.held p hp).frame hf fun n hn hh => hD n hn (hh ▸ hp), hx.nodup, by rw [view_frame hx hf hD]; exact hx.inv⟩

theorem ids_one_nodup (p : Ptr) : (ids [p]).Nodup := by
  cases p with
  | caller t => exact .nil
  | block b t => exact .nil
  | own i => exact List.nodup_cons.mpr ⟨by simp, .nil⟩

theorem mem_ids_one {p : Ptr} {i : Nat} (h : i ∈ ids [p]) : p = .own i := (by simpa using mem_ids.mp h : Ptr.own i = p).symm

/-- A new section. -/
theorem newSection_ok {x : Obj} (hx : ObjOk x) {s : Ptr} {c : Option Ptr} {copy : Bool} {ts : Bytes}
    (hs : x.mem.text s = some ts) (hc : ∀ p, c = some p → Held x.mem p) (hcopy : copy = false → ∃ i u, s = .block i u)
    (hd : (ids (c.toList ++ x.ptrs)).Nodup)
    (hno : first (fun e : Sect => tx x.mem e.name) ts (x.sections.dropWhile (fun e => less (tx x.mem e.name) ts)) = false) :
    ∃ s' m, copyIf copy x.mem s = .ok (s', m) ∧ Frame [] x.mem m ∧ m.text s' = some ts ∧ New x.mem.next s' ∧ (∀ i, s' = .own i → i < m.next)
      ∧ (copy = true → ∃ i, s' = .own i)
      ∧ (let x' : Obj := { x with mem := m, order := x.order + 1, sections := x.sections.takeWhile (fun e => less (tx x.mem e.name) ts)
          ++ ⟨s', c, x.order + 1, []⟩ :: x.sections.dropWhile (fun e => less (tx x.mem e.name) ts) }
        ObjOk x' ∧ (true, view x') = IniStore.addSection ts (c.map (tx x.mem)) (view x) ∧ OriginObj x.mem.next x x'
        ∧ (∀ p ∈ x'.ptrs, p ∈ c.toList ++ x.ptrs ∨ p = s')
        ∧ (∀ a ∈ x.sections, sameName (tx m a.name) ts = false)) := by
  obtain ⟨s', m, e1, o1, f1, t1, h1, n1, b1, cp1⟩ := copyIf_ok hx.mem hs hcopy
  refine ⟨s', m, e1, f1, t1, n1, b1, cp1, ?_⟩
  obtain ⟨hnone, hins⟩ := not_found (sortedS_sections hx) hno
  generalize hlo : x.sections.takeWhile (fun e => less (tx x.mem e.name) ts) = lo at *
  generalize hre : x.sections.dropWhile (fun e => less (tx x.mem e.name) ts) = re at *
  have hsec : x.sections = lo ++ re := by rw [← hlo, ← hre, List.takeWhile_append_dropWhile]
  have hperm : (({ x with mem := m, order := x.order + 1, sections := lo ++ ⟨s', c, x.order + 1, []⟩ :: re } : Obj).ptrs).Perm
      ([s'] ++ (c.toList ++ x.ptrs)) := by
    unfold Obj.ptrs
    simp only
    rw [hsec, List.flatMap_append, List.flatMap_append, List.flatMap_cons]
    have : Sect.ptrs ⟨s', c, x.order + 1, []⟩ = s' :: c.toList := by simp [Sect.ptrs]
    rw [this]
    have h2 : (x.fileComment.toList ++ (lo.flatMap Sect.ptrs ++ (s' :: c.toList ++ re.flatMap Sect.ptrs))).Perm
        (s' :: c.toList ++ (x.fileComment.toList ++ (lo.flatMap Sect.ptrs ++ re.flatMap Sect.ptrs))) :=
      ((perm_swap3 _ _ _).append_left _).trans (perm_swap3 _ _ _)
    simpa using h2
  have hbound : ∀ i ∈ ids (c.toList ++ x.ptrs), i < x.mem.next := by
    intro i hi
    have : Held x.mem (.own i) := by
      rcases List.mem_append.mp (mem_ids.mp hi) with hi | hi
      · exact hc _ (by simpa using hi)
      · exact hx.held _ hi
    obtain ⟨t, ht⟩ := this.2
    exact text_bound hx.mem ht
  have hview : (true, view { x with mem := m, order := x.order + 1, sections := lo ++ ⟨s', c, x.order + 1, []⟩ :: re })
      = IniStore.addSection ts (c.map (tx x.mem)) (view x) := by
    have hfind : IniStore.findSection (view x) ts = none := by
      unfold IniStore.findSection view
      rw [List.find?_eq_none]
      intro a ha
      obtain ⟨b, hb, rfl⟩ := List.mem_map.mp ha
      show ¬ sameName (tx x.mem b.name) ts = true
      rw [hnone b hb]; simp
    unfold IniStore.addSection
    rw [hfind]
    simp only
    refine congrArg (Prod.mk true) ?_
    have hs' : IniStore.insertBy IniStore.Sect.name ⟨ts, c.map (tx x.mem), (view x).order + 1, []⟩ (view x).sections
        = (lo ++ ⟨s', c, x.order + 1, []⟩ :: re).map (viewSect m) := by
      have hno' : first IniStore.Sect.name ts ((view x).sections.dropWhile (fun e => less e.name ts)) = false := by
        have : (view x).sections.dropWhile (fun e => less e.name ts) = re.map (viewSect x.mem) := by
          show (x.sections.map (viewSect x.mem)).dropWhile _ = _
          rw [List.dropWhile_map]
          have : (fun e => less e.name ts) ∘ viewSect x.mem = fun e => less (tx x.mem e.name) ts := rfl
          rw [this, hre]
        rw [this]
        cases re with
        | nil => rfl
        | cons a l => exact hno
      rw [(not_found hx.inv.sorted hno').2 _ rfl]
      have h1 : (view x).sections.dropWhile (fun e => less e.name ts) = re.map (viewSect x.mem) := by
        show (x.sections.map (viewSect x.mem)).dropWhile _ = _
        rw [List.dropWhile_map]
        have : (fun e => less e.name ts) ∘ viewSect x.mem = fun e => less (tx x.mem e.name) ts := rfl
        rw [this, hre]
      have h2 : (view x).sections.takeWhile (fun e => less e.name ts) = lo.map (viewSect x.mem) := by
        show (x.sections.map (viewSect x.mem)).takeWhile _ = _
        rw [List.takeWhile_map]
        have : (fun e => less e.name ts) ∘ viewSect x.mem = fun e => less (tx x.mem e.name) ts := rfl
        rw [this, hlo]
      rw [h1, h2, List.map_append, List.map_cons]
      have hv : ∀ l : List Sect, (∀ a ∈ l, a ∈ x.sections) → l.map (viewSect m) = l.map (viewSect x.mem) := fun l hl =>
        List.map_congr_left fun a ha => viewSect_frame (fun p hp => hx.held p (mem_ptrs_sect (hl a ha) hp)) f1 (by simp)
      rw [hv lo (fun a ha => by rw [hsec]; simp [ha]), hv re (fun a ha => by rw [hsec]; simp [ha])]
      refine congrArg _ (congrArg (· :: _) ?_)
      unfold viewSect
      simp only
      rw [tx_eq t1, map_tx_frame hc f1 (by simp)]
      rfl
    rw [hs']
    unfold view
    simp only
    rw [map_tx_frame (fun p hp => hx.held p (by simp [Obj.ptrs, hp])) f1 (by simp)]
  refine ⟨⟨o1, ?_, ?_, ?_⟩, hview, ?_, ?_, ?_⟩
  · intro p hp
    rcases List.mem_append.mp (hperm.mem_iff.mp hp) with hp | hp
    · simp at hp; subst hp; exact h1
    · rcases List.mem_append.mp hp with hp | hp
      · exact (hc p (by simpa using hp)).frame f1 (by simp)
      · exact (hx.held p hp).frame f1 (by simp)
  · rw [(ids_perm hperm).nodup_iff, ids_append, List.nodup_append]
    refine ⟨ids_one_nodup _, hd, ?_⟩
    intro a ha b hb hab
    have := n1 a (mem_ids_one ha)
    have := hbound b hb
    omega
  · have := hx.inv.addSection ts (c.map (tx x.mem))
    rw [← hview] at this
    exact this
  · intro a ha
    rcases List.mem_append.mp ha with ha | ha
    · exact .inl ⟨a, by rw [hsec]; simp [ha], rfl, fun q hq => Origin.self hq⟩
    · rcases List.mem_cons.mp ha with rfl | ha
      · exact .inr ⟨n1, by simp⟩
      · exact .inl ⟨a, by rw [hsec]; simp [ha], rfl, fun q hq => Origin.self hq⟩
  · intro p hp
    rcases List.mem_append.mp (hperm.mem_iff.mp hp) with hp | hp
    · exact .inr (by simpa using hp)
    · exact .inl hp
  · intro a ha
    rw [tx_frame (hx.held _ (mem_ptrs_name ha)) f1 (by simp)]
    exact hnone a ha

/-- What a call leaves. -/
structure After (copy : Bool) (x x' : Obj) (D : List Nat) : Prop where
  ok : ObjOk x'
  frame : Frame D x.mem x'.mem
  origin : OriginObj x.mem.next x x'
  /-- with copying, no string of a block comes in -/
  src : copy = true → ∀ p ∈ x'.ptrs, p ∈ x.ptrs ∨ ∃ i, p = .own i

theorem OriginObj.trans {n k : Nat} {x y z : Obj} (hnk : n ≤ k) (h1 : OriginObj n x y) (h2 : OriginObj k y z) : OriginObj n x z := by
  have hnew : ∀ p, New k p → New n p := fun p hp i hi => Nat.le_trans hnk (hp i hi)
  intro e he
  rcases h2 e he with ⟨e1, he1, hn1, hq1⟩ | ⟨hn, hq⟩
  · rcases h1 e1 he1 with ⟨e0, he0, hn0, hq0⟩ | ⟨hn0, hq0⟩
    · refine .inl ⟨e0, he0, hn1.trans hn0, fun q hq => ?_⟩
      rcases hq1 q hq with ⟨q1, hq1', ha, hb⟩ | ⟨ha, hb⟩
      · rcases hq0 q1 hq1' with ⟨q0, hq0', ha0, hb0⟩ | ⟨ha0, hb0⟩
        · refine .inl ⟨q0, hq0', ha.trans ha0, ?_⟩
          rcases hb with hb | hb
          · rw [hb]; exact hb0
          · exact .inr (hnew _ hb)
        · refine .inr ⟨by rw [ha]; exact ha0, ?_⟩
          rcases hb with hb | hb
          · rw [hb]; exact hb0
          · exact hnew _ hb
      · exact .inr ⟨hnew _ ha, hnew _ hb⟩
    · refine .inr ⟨by rw [hn1]; exact hn0, fun q hq => ?_⟩
      rcases hq1 q hq with ⟨q1, hq1', ha, hb⟩ | ⟨ha, hb⟩
      · have := hq0 q1 hq1'
        refine ⟨by rw [ha]; exact this.1, ?_⟩
        rcases hb with hb | hb
        · rw [hb]; exact this.2
        · exact hnew _ hb
      · exact ⟨hnew _ ha, hnew _ hb⟩
  · exact .inr ⟨hnew _ hn, fun q hq' => ⟨hnew _ (hq q hq').1, hnew _ (hq q hq').2⟩⟩

theorem mem_releasedObj {o : Options} {x : Obj} {force : Bool} {ts tk : Bytes} {e : Sect} (he : e ∈ x.sections)
    (hsame : sameName (tx x.mem e.name) ts = true) : ∀ i ∈ released o x.mem force tk e.keys, i ∈ releasedObj o x force ts tk := by
  intro i hi
  unfold released at hi
  unfold releasedObj
  split at hi
  · rename_i h
    rw [if_pos h]
    rw [mem_ids, List.mem_flatMap] at hi ⊢
    obtain ⟨q, hq, hp⟩ := hi
    exact ⟨q, List.mem_flatMap.mpr ⟨e, List.mem_filter.mpr ⟨he, hsame⟩, hq⟩, hp⟩
  · cases hi

/-- `AddEntry` with a key after the comment has been copied. -/
theorem addEntryRest_ok {o : Options} {x : Obj} (hx : ObjOk x) {s k v : Ptr} {c : Option Ptr} {force copy : Bool} {ts tk tv : Bytes}
    (hs : x.mem.text s = some ts) (hk : x.mem.text k = some tk) (hv : x.mem.text v = some tv) (hc : ∀ p, c = some p → Held x.mem p)
    (hcs : ∀ i, c = some (.own i) → s ≠ .own i ∧ k ≠ .own i ∧ v ≠ .own i)
    (hcopy : copy = false → (∃ i u, s = .block i u) ∧ (∃ i u, k = .block i u) ∧ ∃ i u, v = .block i u)
    (hcown : copy = true → ∀ p, c = some p → ∃ i, p = .own i)
    (hd : (ids (c.toList ++ x.ptrs)).Nodup)
    (halias : o.multiKey = true → force = true → ∀ e ∈ x.sections, sameName (tx x.mem e.name) ts = true →
      ∀ q ∈ named x.mem tk e.keys, k ∉ q.strings ∧ v ∉ q.strings) :
    ∃ b x', addEntryRest o s (some (k, v)) c force copy x = .ok (b, x')
      ∧ (b, view x') = IniStore.addEntry o ts (some (tk, tv)) (c.map (tx x.mem)) force (view x)
      ∧ After copy x x' (ids c.toList ++ releasedObj o x force ts tk) := by
  have hN := hN_sections hx
  unfold addEntryRest
  rw [lower_ok (N := fun e : Sect => tx x.mem e.name) hs hN]
  simp only [bind, Except.bind]
  rw [hit_ok (N := fun e : Sect => tx x.mem e.name) hs fun e he => hN e ((List.dropWhile_sublist _).subset (List.mem_of_mem_head? he))]
  simp only
  cases hfo : first (fun e : Sect => tx x.mem e.name) ts (x.sections.dropWhile (fun e => less (tx x.mem e.name) ts)) with
  | true =>
    cases hr : x.sections.dropWhile (fun e => less (tx x.mem e.name) ts) with
    | nil => rw [hr] at hfo; cases hfo
    | cons e after =>
      simp only
      rw [hr] at hfo
      obtain ⟨hfind, hsame, hsec, hlo, haf⟩ := IniStore_findSection_found hx hr hfo
      have he : e ∈ x.sections := by rw [hsec]; simp
      obtain ⟨b, keys', m', h1, h2, h3, h4, h5, h6, h7, h8, _, h10⟩ := setInSection_ok hx hs hk hv hc hcs (fun h => (hcopy h).2) hd hsec hsame hlo haf
        (fun a b => halias a b e he hsame) (x.order + 1)
      rw [h1]
      have hstore : IniStore.addEntry o ts (some (tk, tv)) (c.map (tx x.mem)) force (view x)
          = (b, view { x with mem := m', order := x.order + 1, sections := x.sections.takeWhile (fun e => less (tx x.mem e.name) ts) ++ { e with keys := keys' } :: after }) := by
        rw [h7, h6]
        unfold IniStore.addEntry IniStore.addSection
        rw [hfind]
        simp only
        rw [hfind]
        simp only [Option.map_some, Option.getD_some, Bool.false_or]
        rfl
      refine ⟨b, _, rfl, hstore.symm, ⟨h2, h4, h5, ?_⟩, h3.mono ?_, h8, ?_⟩
      · have := hx.inv.addEntry_of (o' := o) (by simp) ts (some (tk, tv)) (c.map (tx x.mem)) force
        rw [hstore] at this
        exact this
      · intro i hi
        rcases List.mem_append.mp hi with hi | hi
        · exact List.mem_append_left _ hi
        · exact List.mem_append_right _ (mem_releasedObj he hsame i hi)
      · intro hcp p hp
        rcases h10 p hp with h | h
        · rcases List.mem_append.mp h with h | h
          · exact .inr (hcown hcp p (by simpa using h))
          · exact .inl h
        · exact .inr (h.2 hcp)
  | false =>
    simp only
    obtain ⟨s', m, e1, f1, t1, n1, b1, cp1, ho, hv1, hor, hid, hnone⟩ := newSection_ok hx (c := none) hs (by simp) (fun h => (hcopy h).1)
      (by simpa using hx.nodup) hfo
    rw [e1]
    simp only
    generalize hlo : x.sections.takeWhile (fun e => less (tx x.mem e.name) ts) = lo at *
    generalize hre : x.sections.dropWhile (fun e => less (tx x.mem e.name) ts) = re at *
    have hsec : x.sections = lo ++ re := by rw [← hlo, ← hre, List.takeWhile_append_dropWhile]
    have hcs' : ∀ i, c = some (.own i) → s' ≠ .own i ∧ k ≠ .own i ∧ v ≠ .own i := by
      intro i hi
      refine ⟨fun hh => ?_, (hcs i hi).2⟩
      have := n1 i hh
      obtain ⟨t, ht⟩ := (hc _ hi).2
      have := text_bound hx.mem ht
      omega
    have hd' : (ids (c.toList ++ ({ x with mem := m, order := x.order + 1, sections := lo ++ ⟨s', none, x.order + 1, []⟩ :: re } : Obj).ptrs)).Nodup := by
      rw [ids_append, List.nodup_append] at hd ⊢
      refine ⟨hd.1, ho.nodup, fun a ha b hb hab => ?_⟩
      subst hab
      rcases hid _ (mem_ids.mp hb) with h | h
      · exact hd.2.2 a ha a (mem_ids.mpr (by simpa using h)) rfl
      · exact (hcs' a (by simpa using mem_ids.mp ha)).1 h.symm
    obtain ⟨b, keys', m', h1, h2, h3, h4, h5, h6, h7, h8, h9, h10⟩ := setInSection_ok (x := { x with mem := m, order := x.order + 1, sections := lo ++ ⟨s', none, x.order + 1, []⟩ :: re })
      (e := ⟨s', none, x.order + 1, []⟩) (lo := lo) (after := re) (force := force) (copy := copy) ho t1 (f1.text k tk hk (by simp)) (f1.text v tv hv (by simp)) (fun p hp => (hc p hp).frame f1 (by simp)) hcs'
      (fun h => (hcopy h).2) hd' rfl (by simp only [tx_eq t1]; exact sameName_refl ts) (fun a ha => hnone a (by rw [hsec]; simp [ha]))
      (fun a ha => hnone a (by rw [hsec]; simp [ha])) (by simp [named]) (x.order + 2)
    have hm' : c.map (tx m) = c.map (tx x.mem) := map_tx_frame hc f1 (by simp)
    have h1' : setKey o s' k v c force copy (x.order + 2) [] m = .ok (b, keys', m') := h1
    rw [h1']
    simp only
    have hstore : IniStore.addEntry o ts (some (tk, tv)) (c.map (tx x.mem)) force (view x)
        = (true, view { x with mem := m', order := x.order + 2, sections := lo ++ ⟨s', none, x.order + 1, keys'⟩ :: re }) := by
      have h7' := h7
      simp only at h7'
      rw [h7']
      unfold IniStore.addEntry
      simp only [Option.isNone_some, Bool.false_eq_true, if_false]
      simp only [Option.map_none] at hv1
      rw [← hv1]
      have hf2 : IniStore.findSection (view { x with mem := m, order := x.order + 1, sections := lo ++ ⟨s', none, x.order + 1, []⟩ :: re }) ts
          = some (viewSect m ⟨s', none, x.order + 1, []⟩) := by
        have : IniStore.findSection (IniStore.addSection ts none (view x)).2 ts = _ := IniStore.findSection_addSection ts none (view x) ts
        unfold IniStore.findSection view
        simp only
        rw [List.map_append, List.map_cons, List.find?_append]
        have : (lo.map (viewSect m)).find? (fun e => sameName e.name ts) = none := by
          rw [List.find?_eq_none]
          intro a ha
          obtain ⟨b, hb, rfl⟩ := List.mem_map.mp ha
          show ¬ sameName (tx m b.name) ts = true
          rw [hnone b (by rw [hsec]; simp [hb])]; simp
        rw [this, List.find?_cons_of_pos (by show sameName (tx m s') ts = true; rw [tx_eq t1]; exact sameName_refl ts)]
        rfl
      simp only [hf2, Option.map_some, Option.getD_some, Bool.true_or]
      rw [hm']
      rfl
    refine ⟨true, _, rfl, hstore.symm, ⟨h2, h4, h5, ?_⟩, ?_, ?_, ?_⟩
    · have := hx.inv.addEntry_of (o' := o) (by simp) ts (some (tk, tv)) (c.map (tx x.mem)) force
      rw [hstore] at this
      exact this
    · have h3' : Frame (ids c.toList) m m' := by
        refine h3.mono ?_
        intro i hi
        rcases List.mem_append.mp hi with hi | hi
        · exact hi
        · unfold released at hi
          simp [named, ids] at hi
      have := f1.trans h3'
      exact this.mono (by intro i hi; simp at hi; simp [hi])
    · exact OriginObj.trans f1.next hor h8
    · intro hcp p hp
      rcases h10 p hp with h | h
      · rcases List.mem_append.mp h with h | h
        · exact .inr (hcown hcp p (by simpa using h))
        · rcases hid p h with h | h
          · exact .inl (by simpa using h)
          · exact .inr (h ▸ cp1 hcp)
      · exact .inr (h.2 hcp)

/-- `AddEntry` without a key after the comment has been copied. -/
theorem addEntryRest_none {o : Options} {x : Obj} (hx : ObjOk x) {s : Ptr} {c : Option Ptr} {force copy : Bool} {ts : Bytes}
    (hs : x.mem.text s = some ts) (hc : ∀ p, c = some p → Held x.mem p) (hcopy : copy = false → ∃ i u, s = .block i u)
    (hcown : copy = true → ∀ p, c = some p → ∃ i, p = .own i)
    (hd : (ids (c.toList ++ x.ptrs)).Nodup) :
    ∃ b x', addEntryRest o s none c force copy x = .ok (b, x')
      ∧ (b, view x') = IniStore.addEntry o ts none (c.map (tx x.mem)) force (view x) ∧ After copy x x' [] := by
  have hN := hN_sections hx
  unfold addEntryRest
  rw [lower_ok (N := fun e : Sect => tx x.mem e.name) hs hN]
  simp only [bind, Except.bind]
  rw [hit_ok (N := fun e : Sect => tx x.mem e.name) hs fun e he => hN e ((List.dropWhile_sublist _).subset (List.mem_of_mem_head? he))]
  simp only
  cases hfo : first (fun e : Sect => tx x.mem e.name) ts (x.sections.dropWhile (fun e => less (tx x.mem e.name) ts)) with
  | true =>
    cases hr : x.sections.dropWhile (fun e => less (tx x.mem e.name) ts) with
    | nil => rw [hr] at hfo; cases hfo
    | cons e after =>
      simp only
      rw [hr] at hfo
      obtain ⟨hfind, _⟩ := IniStore_findSection_found hx hr hfo
      refine ⟨false, x, rfl, ?_, hx, Frame.refl _ _, OriginObj.self fun e he => ⟨e, he, rfl, fun _ h => h⟩, fun _ p hp => .inl hp⟩
      unfold IniStore.addEntry IniStore.addSection
      rw [hfind]
  | false =>
    simp only
    obtain ⟨s', m, e1, f1, t1, n1, b1, cp1, ho, hv1, hor, hid, hnone⟩ := newSection_ok hx hs hc hcopy hd hfo
    rw [e1]
    refine ⟨true, _, rfl, by rw [hv1]; rfl, ho, f1, hor, ?_⟩
    intro hcp p hp
    rcases hid p hp with h | h
    · rcases List.mem_append.mp h with h | h
      · exact .inr (hcown hcp p (by simpa using h))
      · exact .inl h
    · exact .inr (h ▸ cp1 hcp)

theorem copyOptIf_ok {m : Mem} (hm : MemOk m) {b : Bool} {c : Option Ptr} (h : ∀ p, c = some p → ∃ t, m.text p = some t)
    (hb : b = false → ∀ p, c = some p → ∃ i u, p = .block i u) :
    ∃ c' m', copyOptIf b m c = .ok (c', m') ∧ MemOk m' ∧ Frame [] m m' ∧ c'.map (tx m') = c.map (tx m) ∧ (∀ p, c' = some p → Held m' p)
      ∧ (∀ p, c' = some p → New m.next p) ∧ (b = true → ∀ p, c' = some p → ∃ i, p = .own i) := by
  cases c with
  | none => exact ⟨none, m, rfl, hm, Frame.refl _ _, rfl, by simp, by simp, by simp⟩
  | some p =>
    obtain ⟨t, ht⟩ := h p rfl
    obtain ⟨p', m', e1, o1, f1, t1, h1, n1, _, cp1⟩ := copyIf_ok hm ht fun hh => hb hh p rfl
    refine ⟨some p', m', ?_, o1, f1, ?_, ?_, ?_, ?_⟩
    · unfold copyOptIf
      simp only [e1]
      rfl
    · simp [tx_eq t1, tx_eq ht]
    · intro q hq; cases hq; exact h1
    · intro q hq; cases hq; exact n1
    · intro hb q hq; cases hq; exact cp1 hb

/-- `AddEntry` with a key. -/
theorem addEntry_ok {o : Options} {x : Obj} (hx : ObjOk x) {s k v : Ptr} {c : Option Ptr} {force copy : Bool} {ts tk tv : Bytes}
    (hs : x.mem.text s = some ts) (hk : x.mem.text k = some tk) (hv : x.mem.text v = some tv) (hc : ∀ p, c = some p → ∃ t, x.mem.text p = some t)
    (hcopy : copy = false → ((∃ i u, s = .block i u) ∧ (∃ i u, k = .block i u) ∧ ∃ i u, v = .block i u) ∧ ∀ p, c = some p → ∃ i u, p = .block i u)
    (halias : o.multiKey = true → force = true → ∀ e ∈ x.sections, sameName (tx x.mem e.name) ts = true →
      ∀ q ∈ named x.mem tk e.keys, k ∉ q.strings ∧ v ∉ q.strings) :
    ∃ b x', addEntry o s (some (k, v)) c force copy x = .ok (b, x')
      ∧ (b, view x') = IniStore.addEntry o ts (some (tk, tv)) (c.map (tx x.mem)) force (view x)
      ∧ After copy x x' (releasedObj o x force ts tk) := by
  obtain ⟨c', m, e1, o1, f1, t1, h1, n1, cp1⟩ := copyOptIf_ok hx.mem hc fun h => (hcopy h).2
  have hx1 : ObjOk { x with mem := m } := hx.frame o1 f1 (by simp)
  have hview : view { x with mem := m } = view x := view_frame hx f1 (by simp)
  have hnew : ∀ i, c' = some (.own i) → ∀ p t, x.mem.text p = some t → p ≠ .own i := by
    intro i hi p t hp hh
    subst hh
    have := n1 _ hi i rfl
    have := text_bound hx.mem hp
    omega
  have hd : (ids (c'.toList ++ ({ x with mem := m } : Obj).ptrs)).Nodup := by
    rw [ids_append, List.nodup_append]
    refine ⟨?_, hx.nodup, fun a ha b hb hab => ?_⟩
    · cases c' with
      | none => exact .nil
      | some p => exact ids_one_nodup p
    · have hca : c' = some (.own a) := by simpa using mem_ids.mp ha
      obtain ⟨t, ht⟩ := (hx.held _ (mem_ids.mp hb)).2
      exact hnew a hca _ t ht (by rw [hab])
  have htn : ∀ e ∈ x.sections, tx m e.name = tx x.mem e.name := fun e he => tx_frame (hx.held _ (mem_ptrs_name he)) f1 (by simp)
  have hnamed : ∀ e ∈ x.sections, named m tk e.keys = named x.mem tk e.keys := by
    intro e he
    unfold named
    refine List.filter_congr fun q hq => ?_
    rw [tx_frame (hx.held _ (mem_ptrs_key he hq (by simp [Key.ptrs, Key.strings]))) f1 (by simp)]
  obtain ⟨b, x', h2, h3, h4, h5, h6, h7⟩ := addEntryRest_ok hx1 (f1.text s ts hs (by simp)) (f1.text k tk hk (by simp)) (f1.text v tv hv (by simp)) h1
    (fun i hi => ⟨hnew i hi s ts hs, hnew i hi k tk hk, hnew i hi v tv hv⟩) (fun h => (hcopy h).1) cp1 hd
    (force := force) (fun a b e he hsame q hq => by
      simp only at hsame hq he
      rw [htn e he] at hsame
      rw [hnamed e he] at hq
      exact halias a b e he hsame q hq)
  refine ⟨b, x', ?_, ?_, h4, ?_, ?_, h7⟩
  · unfold addEntry
    rw [e1]
    exact h2
  · rw [h3, hview, ← t1]
  · refine (f1.trans h5).old hx.mem ?_
    intro i hi hlt
    simp only [List.nil_append] at hi
    rcases List.mem_append.mp hi with hi | hi
    · have hci : c' = some (.own i) := by simpa using mem_ids.mp hi
      have := n1 _ hci i rfl
      omega
    · have : releasedObj o { x with mem := m } force ts tk = releasedObj o x force ts tk := by
        unfold releasedObj
        simp only
        split
        · refine congrArg ids (congrArg (fun l : List Key => l.flatMap Key.strings) ?_)
          have : (x.sections.filter fun e => sameName (tx m e.name) ts) = x.sections.filter fun e => sameName (tx x.mem e.name) ts :=
            List.filter_congr fun e he => by rw [htn e he]
          rw [this]
          rw [List.flatMap_def, List.flatMap_def]
          exact congrArg _ (List.map_congr_left fun e he => hnamed e (List.mem_filter.mp he).1)
        · rfl
      rwa [this] at hi
  · intro e he
    rcases h6 e he with ⟨e0, he0, hn, hq⟩ | ⟨hn, hq⟩
    · refine .inl ⟨e0, he0, hn, fun q hq' => ?_⟩
      rcases hq q hq' with ⟨q0, hq0, ha, hb⟩ | ⟨ha, hb⟩
      · refine .inl ⟨q0, hq0, ha, ?_⟩
        rcases hb with hb | hb
        · exact .inl hb
        · exact .inr fun i hi => Nat.le_trans f1.next (hb i hi)
      · exact .inr ⟨fun i hi => Nat.le_trans f1.next (ha i hi), fun i hi => Nat.le_trans f1.next (hb i hi)⟩
    · exact .inr ⟨fun i hi => Nat.le_trans f1.next (hn i hi), fun q hq' =>
        ⟨fun i hi => Nat.le_trans f1.next ((hq q hq').1 i hi), fun i hi => Nat.le_trans f1.next ((hq q hq').2 i hi)⟩⟩

/-- `AddEntry` without a key. -/
theorem addEntry_none {o : Options} {x : Obj} (hx : ObjOk x) {s : Ptr} {c : Option Ptr} {force copy : Bool} {ts : Bytes}
    (hs : x.mem.text s = some ts) (hc : ∀ p, c = some p → ∃ t, x.mem.text p = some t)
    (hcopy : copy = false → (∃ i u, s = .block i u) ∧ ∀ p, c = some p → ∃ i u, p = .block i u) :
    ∃ b x', addEntry o s none c force copy x = .ok (b, x')
      ∧ (b, view x') = IniStore.addEntry o ts none (c.map (tx x.mem)) force (view x) ∧ After copy x x' [] := by
  obtain ⟨c', m, e1, o1, f1, t1, h1, n1, cp1⟩ := copyOptIf_ok hx.mem hc fun h => (hcopy h).2
  have hx1 : ObjOk { x with mem := m } := hx.frame o1 f1 (by simp)
  have hview : view { x with mem := m } = view x := view_frame hx f1 (by simp)
  have hd : (ids (c'.toList ++ ({ x with mem := m } : Obj).ptrs)).Nodup := by
    rw [ids_append, List.nodup_append]
    refine ⟨?_, hx.nodup, fun a ha b hb hab => ?_⟩
    · cases c' with
      | none => exact .nil
      | some p => exact ids_one_nodup p
    · have hca : c' = some (.own a) := by simpa using mem_ids.mp ha
      have := n1 _ hca a rfl
      have := id_bound hx hb
      omega
  obtain ⟨b, x', h2, h3, h4, h5, h6, h7⟩ := addEntryRest_none hx1 (force := force) (f1.text s ts hs (by simp)) h1 (fun h => (hcopy h).1) cp1 hd
  refine ⟨b, x', ?_, ?_, h4, f1.trans h5, ?_, h7⟩
  · unfold addEntry
    rw [e1]
    exact h2
  · rw [h3, hview, ← t1]
  · exact OriginObj.trans f1.next (OriginObj.self (x := x) (x' := { x with mem := m }) fun e he => ⟨e, he, rfl, fun _ h => h⟩) h6

end Licensecc.IniHeap
