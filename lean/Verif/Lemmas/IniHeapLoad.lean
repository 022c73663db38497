import Verif.Lemmas.IniHeapDelete
/-!
# Lemmas about the memory of INI objects: `LoadData`, `Reset`, `GetValue`
-/
namespace Licensecc.IniHeap
open Ini hiding getValue setKey load
open IniStore (Options insertBy SortedS SortedW Inv Found)
open IniMem (less)

theorem view_congr {x : Obj} {m : Mem} (h : ∀ p ∈ x.ptrs, tx m p = tx x.mem p) : view { x with mem := m } = view x := by
  have hk : ∀ e ∈ x.sections, ∀ q ∈ e.keys, viewKey m q = viewKey x.mem q := by
    intro e he q hq
    have hp : ∀ p ∈ q.ptrs, tx m p = tx x.mem p := fun p hp => h p (mem_ptrs_key he hq hp)
    unfold viewKey
    rw [hp q.name (by simp [Key.ptrs, Key.strings]), hp q.value (by simp [Key.ptrs, Key.strings])]
    cases hc : q.comment with
    | none => rfl
    | some c => simp only [Option.map_some]; rw [hp c (by simp [Key.ptrs, hc])]
  unfold view
  simp only
  have h1 : x.fileComment.map (tx m) = x.fileComment.map (tx x.mem) := by
    cases hc : x.fileComment with
    | none => rfl
    | some c => simp only [Option.map_some]; rw [h c (by simp [Obj.ptrs, hc])]
  have h2 : x.sections.map (viewSect m) = x.sections.map (viewSect x.mem) := by
    refine List.map_congr_left fun e he => ?_
    unfold viewSect
    rw [h e.name (mem_ptrs_name he), List.map_congr_left (hk e he)]
    cases hc : e.comment with
    | none => rfl
    | some c => simp only [Option.map_some]; rw [h c (mem_ptrs_comment he hc)]
  rw [h1, h2]

theorem ObjOk.congr {x : Obj} (hx : ObjOk x) {m : Mem} (hm : MemOk m) (h : ∀ p ∈ x.ptrs, ∀ t, x.mem.text p = some t → m.text p = some t) :
    ObjOk { x with mem := m } ∧ view { x with mem := m } = view x := by
  have hv : view { x with mem := m } = view x := view_congr fun p hp => by
    have := (hx.held p hp).text
    rw [tx_eq (h p hp _ this)]
  exact ⟨⟨hm, fun p hp => ⟨(hx.held p hp).1, (hx.held p hp).2.imp fun t ht => h p hp t ht⟩, hx.nodup, by rw [hv]; exact hx.inv⟩, hv⟩

theorem After.trans {copy : Bool} {x y z : Obj} (h1 : After copy x y []) (h2 : After copy y z []) : After copy x z [] :=
  ⟨h2.ok, h1.frame.trans h2.frame, OriginObj.trans h1.frame.next h1.origin h2.origin, fun hc p hp => by
    rcases h2.src hc p hp with h | h
    · exact h1.src hc p h
    · exact .inr h⟩

theorem text_block {m : Mem} {b : Nat} (h : b ∈ m.blocks) (t : Bytes) : m.text (.block b t) = some t := by
  unfold Mem.text
  simp only
  rw [if_pos h]

theorem addAll_ok {o : Options} {b : Nat} {copy : Bool} : ∀ (l : List Found) {x : Obj}, ObjOk x → b ∈ x.mem.blocks →
    ∃ y, addAll o b copy x l = .ok y ∧ view y = IniStore.addAll o l (view x) ∧ After copy x y []
  | [], x, hx, _ => ⟨x, rfl, rfl, hx, Frame.refl _ _, OriginObj.self fun e he => ⟨e, he, rfl, fun _ h => h⟩, fun _ p hp => .inl hp⟩
  | f :: l, x, hx, hb => by
    have hbt := text_block hb
    have hc : ∀ p, f.comment.map (Ptr.block b) = some p → ∃ t, x.mem.text p = some t := by
      intro p hp
      obtain ⟨c, _, rfl⟩ := Option.map_eq_some_iff.mp hp
      exact ⟨c, hbt c⟩
    have hcb : ∀ p, f.comment.map (Ptr.block b) = some p → ∃ i u, p = .block i u := by
      intro p hp
      obtain ⟨c, _, rfl⟩ := Option.map_eq_some_iff.mp hp
      exact ⟨b, c, rfl⟩
    have hcv : (f.comment.map (Ptr.block b)).map (tx x.mem) = f.comment := by
      cases f.comment with
      | none => rfl
      | some c => simp [tx_eq (hbt c)]
    have key : ∃ r x', addEntry o (.block b f.sect) (f.kv.map fun kv => (.block b kv.1, .block b kv.2)) (f.comment.map (.block b)) false copy x = .ok (r, x')
        ∧ (r, view x') = IniStore.addEntry o f.sect f.kv f.comment false (view x) ∧ After copy x x' [] := by
      cases hkv : f.kv with
      | none =>
        obtain ⟨r, x', h1, h2, h3⟩ := addEntry_none hx (force := false) (copy := copy) (hbt f.sect) hc fun _ => ⟨⟨b, _, rfl⟩, hcb⟩
        exact ⟨r, x', h1, by rw [h2, hcv], h3⟩
      | some kv =>
        obtain ⟨k, v⟩ := kv
        obtain ⟨r, x', h1, h2, h3⟩ := addEntry_ok hx (force := false) (copy := copy) (hbt f.sect) (hbt k) (hbt v) hc
          (fun _ => ⟨⟨⟨b, _, rfl⟩, ⟨b, _, rfl⟩, ⟨b, _, rfl⟩⟩, hcb⟩) (by simp)
        refine ⟨r, x', h1, by rw [h2, hcv], ?_⟩
        have : releasedObj o x false f.sect k = [] := by unfold releasedObj; simp
        rwa [this] at h3
    obtain ⟨r, x', h1, h2, h3⟩ := key
    obtain ⟨y, h4, h5, h6⟩ := addAll_ok l h3.ok (by rw [h3.frame.blocks]; exact hb)
    refine ⟨y, ?_, ?_, h3.trans h6⟩
    · unfold addAll
      rw [h1]
      exact h4
    · rw [h5]
      unfold IniStore.addAll
      rw [List.foldl_cons, ← h2]

/-- The blocks allocated are `m_pData`. -/
def BlocksOk (m : Mem) : Prop := m.blocks = m.data.toList

/-- What an action leaves of the strings: all but `D`. -/
structure Later (D : List Nat) (x y : Obj) : Prop where
  text : ∀ p t, x.mem.text p = some t → (∀ n ∈ D, p ≠ .own n) → y.mem.text p = some t
  next : x.mem.next ≤ y.mem.next
  back : ∀ i t, i < x.mem.next → y.mem.text (.own i) = some t → x.mem.text (.own i) = some t
  origin : OriginObj x.mem.next x y

theorem After.later {copy : Bool} {x y : Obj} {D : List Nat} (h : After copy x y D) : Later D x y :=
  ⟨h.frame.text, h.frame.next, fun i t hi ht => h.frame.back _ t ht fun _ e => by cases e; exact hi, h.origin⟩

theorem load_ok {o : Options} {x : Obj} (hx : ObjOk x) (hb : BlocksOk x.mem) (s : Bytes) :
    ∃ y, load o s x = .ok y ∧ view y = IniStore.loadEvery o x.mem.data.isSome s (view x) ∧ ObjOk y ∧ BlocksOk y.mem ∧ y.mem.data.isSome = (decide (s ≠ []) || x.mem.data.isSome) ∧ Later [] x y := by
  unfold load
  by_cases h0 : s = []
  · rw [if_pos h0]
    subst h0
    refine ⟨x, rfl, ?_, hx, hb, rfl, fun _ _ h _ => h, Nat.le_refl _, fun _ _ _ h => h, OriginObj.self fun e he => ⟨e, he, rfl, fun _ h => h⟩⟩
    unfold IniStore.loadEvery
    have hd : cut (IniStore.dropMark o []) = [] := by
      unfold IniStore.dropMark
      cases o.utf8 <;> rfl
    rw [hd]
    have hf : IniStore.findFileComment (view x) [] = ((view x).fileComment, []) := by
      unfold IniStore.findFileComment
      cases hc : (view x).fileComment with
      | none => rfl
      | some c => rfl
    rw [hf]
    rfl
  · rw [if_neg h0]
    simp only
    generalize ht : cut (IniStore.dropMark o s) = t
    -- the block
    have hfresh : x.mem.next ∉ x.mem.blocks := fun h => Nat.lt_irrefl _ (hx.mem.blockBound _ h)
    have hm1 : MemOk { x.mem with blocks := x.mem.next :: x.mem.blocks, next := x.mem.next + 1 } :=
      ⟨hx.mem.strings, hx.mem.nodup, fun n hn => Nat.lt_succ_of_lt (hx.mem.bound n hn), List.nodup_cons.mpr ⟨hfresh, hx.mem.blocks⟩,
       fun c hc => by
        rcases List.mem_cons.mp hc with rfl | hc
        · exact Nat.lt_succ_self _
        · exact Nat.lt_succ_of_lt (hx.mem.blockBound c hc)⟩
    have hgrow : ∀ p u, x.mem.text p = some u → ({ x.mem with blocks := x.mem.next :: x.mem.blocks, next := x.mem.next + 1 } : Mem).text p = some u := by
      intro p u hp
      cases p with
      | caller t => exact hp
      | block c t =>
        unfold Mem.text at hp ⊢
        simp only at hp ⊢
        split at hp
        · rw [if_pos (List.mem_cons_of_mem _ (by assumption))]; exact hp
        · cases hp
      | own n => exact hp
    obtain ⟨hx1, hv1⟩ := hx.congr hm1 fun p _ => hgrow p
    have hnob : ∀ p ∈ x.ptrs, ∀ u, p ≠ .block x.mem.next u := by
      intro p hp u hh
      obtain ⟨t, ht⟩ := (hx.held p hp).2
      rw [hh] at ht
      unfold Mem.text at ht
      simp only at ht
      rw [if_neg hfresh] at ht
      cases ht
    generalize hcopy : x.mem.data.isSome = copy
    generalize hx1e : ({ x with mem := { x.mem with blocks := x.mem.next :: x.mem.blocks, next := x.mem.next + 1 } } : Obj) = x1 at hx1 hv1
    have hb1 : x1.mem.blocks = x.mem.next :: x.mem.blocks := by rw [← hx1e]
    have hn1 : x1.mem.next = x.mem.next + 1 := by rw [← hx1e]
    have hd1 : x1.mem.data = x.mem.data := by rw [← hx1e]
    have hp1 : x1.ptrs = x.ptrs := by rw [← hx1e]; rfl
    have hs1 : x1.sections = x.sections := by rw [← hx1e]
    have hc1 : x1.fileComment = x.fileComment := by rw [← hx1e]
    have htx1 : ∀ p u, x.mem.text p = some u → x1.mem.text p = some u := by rw [← hx1e]; exact hgrow
    have hbk1 : ∀ i u, x1.mem.text (.own i) = some u → x.mem.text (.own i) = some u := by rw [← hx1e]; exact fun i u h => h
    clear hx1e hm1 hgrow
    -- the comment of the file
    have hfc : ∃ x2 rest, findFileComment x.mem.next copy t x1 = .ok (x2, rest) ∧ After copy x1 x2 []
        ∧ (IniStore.findFileComment (view x) t) = ((view x2).fileComment, rest)
        ∧ view x2 = { view x with fileComment := (view x2).fileComment } := by
      unfold findFileComment IniStore.findFileComment
      rw [hc1]
      have hvf : (view x).fileComment = x.fileComment.map (tx x.mem) := rfl
      cases hf : x.fileComment with
      | some c =>
        rw [hvf, hf]
        simp only [Option.map_some]
        refine ⟨x1, t, rfl, ⟨hx1, Frame.refl _ _, OriginObj.self fun e he => ⟨e, he, rfl, fun _ h => h⟩, fun _ p hp => .inl hp⟩, ?_, ?_⟩
        · rw [hv1, hvf, hf]; rfl
        · rw [hv1]
      | none =>
        rw [hvf, hf]
        simp only [Option.map_none]
        by_cases hsc : startsComment t = true
        · rw [if_pos hsc, if_pos hsc]
          have hbt := text_block (m := x1.mem) (b := x.mem.next) (by rw [hb1]; simp) (IniStore.commentText false t.length [] t).1
          obtain ⟨p', m', e1, o1, f1, t1, h1, n1, b1, cp1⟩ := copyIf_ok hx1.mem (b := copy) hbt fun _ => ⟨_, _, rfl⟩
          rw [e1]
          have hx1m := hx1.congr o1 fun p hp u hu => f1.text p u hu (by simp)
          have hptrs : ({ x1 with mem := m', fileComment := some p' } : Obj).ptrs = p' :: x1.ptrs := by
            unfold Obj.ptrs
            rw [hc1, hf]
            rfl
          have hview : view { x1 with mem := m', fileComment := some p' } = { view x with fileComment := some (IniStore.commentText false t.length [] t).1 } := by
            have h2 := hx1m.2
            rw [hv1] at h2
            unfold view at h2 ⊢
            simp only [IniStore.Store.mk.injEq] at h2 ⊢
            exact ⟨by simp [tx_eq t1], h2.2⟩
          refine ⟨_, _, rfl, ⟨⟨o1, ?_, ?_, ?_⟩, f1, ?_, ?_⟩, ?_, ?_⟩
          · rw [hptrs]
            intro p hp
            rcases List.mem_cons.mp hp with rfl | hp
            · exact h1
            · exact (hx1.held p hp).frame f1 (by simp)
          · rw [hptrs, ids_cons, List.nodup_append]
            refine ⟨ids_one_nodup _, hx1.nodup, fun a ha b hb hab => ?_⟩
            have := n1 a (mem_ids_one ha)
            have := id_bound hx1 hb
            omega
          · rw [hview]
            exact ⟨hx.inv.sorted, hx.inv.bound, hx.inv.orders, hx.inv.keys⟩
          · exact OriginObj.self fun e he => ⟨e, he, rfl, fun _ h => h⟩
          · intro hc p hp
            rw [hptrs] at hp
            rcases List.mem_cons.mp hp with rfl | hp
            · exact .inr (cp1 hc)
            · exact .inl hp
          · rw [hview]
          · rw [hview]
        · rw [if_neg hsc, if_neg hsc]
          refine ⟨x1, t, rfl, ⟨hx1, Frame.refl _ _, OriginObj.self fun e he => ⟨e, he, rfl, fun _ h => h⟩, fun _ p hp => .inl hp⟩, ?_, ?_⟩
          · rw [hv1, hvf, hf]; rfl
          · rw [hv1]
    obtain ⟨x2, rest, e2, a2, w2, v2⟩ := hfc
    have hs : IniStore.loadEvery o copy s (view x) = IniStore.addAll o (IniStore.findEvery o copy (rest.length + 1) (.named []) none rest) (view x2) := by
      unfold IniStore.loadEvery
      rw [ht, w2]
      exact congrArg (IniStore.addAll o (IniStore.findEvery o copy (rest.length + 1) (.named []) none rest)) v2.symm
    rw [hs, e2]
    simp only [bind, Except.bind]
    generalize IniStore.findEvery o copy (rest.length + 1) (.named []) none rest = l
    obtain ⟨y, e3, v3, a3⟩ := addAll_ok (o := o) (b := x.mem.next) (copy := copy) l a2.ok (by rw [a2.frame.blocks, hb1]; simp)
    have a23 := a2.trans a3
    have hby : y.mem.blocks = x.mem.next :: x.mem.blocks := by rw [a23.frame.blocks, hb1]
    have hdy : y.mem.data = x.mem.data := by rw [a23.frame.data, hd1]
    have hnexty : x.mem.next ≤ y.mem.next := by have := a23.frame.next; omega
    have hoy : OriginObj x.mem.next x y := OriginObj.trans (Nat.le_trans (Nat.le_succ _) (Nat.le_of_eq hn1.symm)) (x := x) (y := x1)
      (OriginObj.self fun e he => ⟨e, by rw [← hs1]; exact he, rfl, fun _ h => h⟩) a23.origin
    have htexty : ∀ p u, x.mem.text p = some u → y.mem.text p = some u := fun p u hp => a23.frame.text p u (htx1 p u hp) (by simp)
    have hbacky : ∀ i u, i < x.mem.next → y.mem.text (.own i) = some u → x.mem.text (.own i) = some u := fun i u hi hu =>
      hbk1 i u (a23.frame.back _ u hu fun j hj => by cases hj; omega)
    rw [e3]
    simp only
    unfold keepBlock
    cases copy with
    | true =>
      rw [if_pos rfl, if_pos (by rw [hby]; simp)]
      have herase : y.mem.blocks.erase x.mem.next = x.mem.blocks := by rw [hby]; simp
      have hm3 : MemOk { y.mem with blocks := y.mem.blocks.erase x.mem.next } :=
        ⟨a3.ok.mem.strings, a3.ok.mem.nodup, a3.ok.mem.bound, a3.ok.mem.blocks.erase _, fun c hc => a3.ok.mem.blockBound c (List.mem_of_mem_erase hc)⟩
      have hkeep : ∀ p u, (∀ v, p ≠ .block x.mem.next v) → y.mem.text p = some u →
          ({ y.mem with blocks := y.mem.blocks.erase x.mem.next } : Mem).text p = some u := by
        intro p u hp hu
        cases p with
        | caller t => exact hu
        | own n => exact hu
        | block c t =>
          unfold Mem.text at hu ⊢
          simp only at hu ⊢
          split at hu
          · rename_i hc
            rw [if_pos ?_]
            · exact hu
            · refine (List.mem_erase_of_ne ?_).mpr hc
              intro hh
              exact hp t (by rw [hh])
          · cases hu
      have hno : ∀ p ∈ y.ptrs, ∀ v, p ≠ .block x.mem.next v := by
        intro p hp v hh
        rcases a23.src rfl p hp with h | ⟨i, h⟩
        · rw [hp1] at h; exact hnob p h v hh
        · rw [h] at hh; cases hh
      obtain ⟨h1, h2⟩ := a3.ok.congr hm3 fun p hp u hu => hkeep p u (hno p hp) hu
      refine ⟨_, rfl, ?_, h1, ?_, by simp only; rw [hdy, hcopy]; simp, ?_, hnexty, hbacky, hoy⟩
      · rw [h2, v3]
      · unfold BlocksOk
        simp only
        rw [herase, hdy]; exact hb
      · intro p u hp _
        refine hkeep p u ?_ (htexty p u hp)
        intro v hh
        rw [hh] at hp
        unfold Mem.text at hp
        simp only at hp
        rw [if_neg hfresh] at hp
        cases hp
    | false =>
      rw [if_neg (by simp)]
      have hdn : x.mem.data = none := by
        cases hd : x.mem.data with
        | none => rfl
        | some c => rw [hd] at hcopy; cases hcopy
      have hbn : x.mem.blocks = [] := by rw [hb, hdn]; rfl
      have hm3 : MemOk { y.mem with data := some x.mem.next } :=
        ⟨a3.ok.mem.strings, a3.ok.mem.nodup, a3.ok.mem.bound, a3.ok.mem.blocks, a3.ok.mem.blockBound⟩
      have hkeep : ∀ p u, y.mem.text p = some u → ({ y.mem with data := some x.mem.next } : Mem).text p = some u := by
        intro p u hu
        cases p <;> exact hu
      obtain ⟨h1, h2⟩ := a3.ok.congr hm3 fun p _ u hu => hkeep p u hu
      refine ⟨_, rfl, ?_, h1, ?_, by simp [h0], fun p u hp _ => hkeep p u (htexty p u hp), hnexty, ?_, hoy⟩
      · rw [h2, v3]
      · unfold BlocksOk
        simp only
        rw [hby, hbn]; rfl
      · intro i u hi hu
        exact hbacky i u hi hu

theorem releaseAll_ok : ∀ (l : List Nat) (m : Mem), l.Nodup → (∀ n ∈ l, n ∈ m.heap.map (·.1)) →
    releaseAll m l = .ok { m with heap := m.heap.filter fun e => !decide (e.1 ∈ l) }
  | [], m, _, _ => by
    unfold releaseAll
    have : (m.heap.filter fun e => !decide (e.1 ∈ ([] : List Nat))) = m.heap := by rw [List.filter_eq_self]; simp
    rw [this]
  | n :: l, m, hd, h => by
    have hd' := List.nodup_cons.mp hd
    unfold releaseAll release
    rw [if_pos (h n (by simp))]
    simp only [bind, Except.bind]
    rw [releaseAll_ok l _ hd'.2]
    · simp only
      rw [List.filter_filter]
      refine congrArg Except.ok ?_
      refine congrArg (fun h => ({ m with heap := h } : Mem)) ?_
      refine List.filter_congr fun e _ => ?_
      by_cases h1 : e.1 = n
      · simp [h1]
      · simp [h1]
    · intro k hk
      simp only
      obtain ⟨e, he, rfl⟩ := List.mem_map.mp (h k (List.mem_cons_of_mem _ hk))
      refine List.mem_map.mpr ⟨e, List.mem_filter.mpr ⟨he, ?_⟩, rfl⟩
      have : e.1 ≠ n := fun hh => hd'.1 (hh ▸ hk)
      simpa using this

theorem reset_ok {x : Obj} (hx : ObjOk x) (hb : BlocksOk x.mem) :
    reset x = .ok { mem := { heap := [], blocks := [], next := x.mem.next, strings := [], data := none }, fileComment := none, sections := [], order := x.order } := by
  have hfil : (x.mem.heap.filter fun e => !decide (e.1 ∈ x.mem.strings)) = [] := by
    rw [List.filter_eq_nil_iff]
    intro e he
    have : e.1 ∈ x.mem.strings := by rw [hx.mem.strings]; exact List.mem_map.mpr ⟨e, he, rfl⟩
    simp [this]
  have hin : ∀ n ∈ x.mem.strings, n ∈ x.mem.heap.map (·.1) := fun n hn => hx.mem.strings ▸ hn
  unfold reset releaseData
  unfold BlocksOk at hb
  cases hd : x.mem.data with
  | none =>
    rw [hd] at hb
    simp only [bind, Except.bind]
    rw [releaseAll_ok _ _ hx.mem.nodup hin, hfil, hb]
    rfl
  | some b =>
    rw [hd] at hb
    simp only
    rw [if_pos (by rw [hb]; simp)]
    simp only [bind, Except.bind]
    rw [releaseAll_ok x.mem.strings ⟨x.mem.heap, x.mem.blocks.erase b, x.mem.next, x.mem.strings, some b⟩ hx.mem.nodup hin]
    simp only
    rw [hfil, hb]
    simp

/-- `GetValue` gives the address of the value. -/
theorem getValue_ok {o : Options} {x : Obj} (hx : ObjOk x) {s k : Ptr} {ts tk : Bytes} (hs : x.mem.text s = some ts) (hk : x.mem.text k = some tk) :
    ∃ r, getValue x s k = .ok r ∧ r.map (tx x.mem) = (IniStore.getValue o (view x) ts tk).1
      ∧ ∀ p, r = some p → ∃ e ∈ x.sections, ∃ A q B, e.keys = A ++ q :: B ∧ q.value = p ∧ sameName (tx x.mem e.name) ts = true
        ∧ sameName (tx x.mem q.name) tk = true ∧ (∀ a ∈ A, less (tx x.mem a.name) tk = true) := by
  have hN := hN_sections hx
  unfold getValue
  rw [lower_ok (N := fun e : Sect => tx x.mem e.name) hs hN]
  simp only [bind, Except.bind]
  rw [hit_ok (N := fun e : Sect => tx x.mem e.name) hs fun e he => hN e ((List.dropWhile_sublist _).subset (List.mem_of_mem_head? he))]
  simp only
  cases hfo : first (fun e : Sect => tx x.mem e.name) ts (x.sections.dropWhile (fun e => less (tx x.mem e.name) ts)) with
  | false =>
    simp only
    have hfind : IniStore.findSection (view x) ts = none := by
      unfold IniStore.findSection view
      rw [List.find?_eq_none]
      intro a ha
      obtain ⟨b, hb, rfl⟩ := List.mem_map.mp ha
      show ¬ sameName (tx x.mem b.name) ts = true
      rw [(not_found (sortedS_sections hx) hfo).1 b hb]; simp
    refine ⟨none, rfl, ?_, by simp⟩
    unfold IniStore.getValue
    rw [hfind]
    rfl
  | true =>
    cases hr : x.sections.dropWhile (fun e => less (tx x.mem e.name) ts) with
    | nil => rw [hr] at hfo; cases hfo
    | cons e after =>
      rw [hr] at hfo
      obtain ⟨hfind, hsame, hsec, hlo, haf⟩ := IniStore_findSection_found hx hr hfo
      have he : e ∈ x.sections := by rw [hsec]; simp
      have hKN : ∀ q ∈ e.keys, x.mem.text q.name = some (tx x.mem q.name) := fun q hq =>
        (hx.held q.name (mem_ptrs_key he hq (by simp [Key.ptrs, Key.strings]))).text
      have hsortW : SortedW (fun q : Key => tx x.mem q.name) e.keys :=
        sortedW_view (hx.inv.keys (viewSect x.mem e) (List.mem_map.mpr ⟨e, he, rfl⟩)).sorted
      have hdrop : ∀ q ∈ e.keys.dropWhile (fun q => less (tx x.mem q.name) tk), q ∈ e.keys := fun q hq => (List.dropWhile_sublist _).subset hq
      simp only
      rw [lower_ok (N := fun q : Key => tx x.mem q.name) hk hKN]
      simp only
      rw [hit_ok (N := fun q : Key => tx x.mem q.name) hk fun q hq => hKN q (hdrop q (List.mem_of_mem_head? hq))]
      simp only
      have hgv : (IniStore.getValue o (view x) ts tk).1 = (named x.mem tk e.keys).head?.map (fun q => tx x.mem q.value) := by
        unfold IniStore.getValue
        rw [hfind]
        simp only
        have : (viewSect x.mem e).keys = e.keys.map (viewKey x.mem) := rfl
        rw [this, view_named, List.head?_map, Option.map_map]
        rfl
      have hsp := (sorted_split hsortW tk).1
      have hrun : e.keys.filter (fun q => sameName (tx x.mem q.name) tk) = named x.mem tk e.keys := rfl
      rw [hrun] at hsp
      cases hfk : first (fun q : Key => tx x.mem q.name) tk (e.keys.dropWhile (fun q => less (tx x.mem q.name) tk)) with
      | false =>
        refine ⟨none, rfl, ?_, by simp⟩
        have hnil : named x.mem tk e.keys = [] := by
          cases hn : named x.mem tk e.keys with
          | nil => rfl
          | cons a l =>
            have := (first_iff hsortW tk).mpr (by rw [hrun, hn]; simp)
            rw [this] at hfk; cases hfk
        rw [hgv, hnil]; rfl
      | true =>
        cases hq : e.keys.dropWhile (fun q => less (tx x.mem q.name) tk) with
        | nil => rw [hq] at hfk; cases hfk
        | cons q l =>
          rw [hq] at hfk hsp
          have hq' : (!less tk (tx x.mem q.name)) = true := hfk
          rw [List.takeWhile_cons, if_pos hq'] at hsp
          refine ⟨some q.value, rfl, by rw [hgv, hsp]; rfl, fun p hp => ?_⟩
          cases hp
          refine ⟨e, he, e.keys.takeWhile (fun q => less (tx x.mem q.name) tk), q, l, ?_, rfl, hsame, ?_, takeWhile_lower⟩
          · conv => lhs; rw [← List.takeWhile_append_dropWhile (p := fun q : Key => less (tx x.mem q.name) tk) (l := e.keys), hq]
          · have : q ∈ named x.mem tk e.keys := by rw [hsp]; simp
            exact (List.mem_filter.mp this).2

end Licensecc.IniHeap
