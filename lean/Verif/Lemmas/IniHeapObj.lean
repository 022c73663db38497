import Verif.Lemmas.IniHeapSet
/-!
# Lemmas about the memory of INI objects: the whole object
-/
namespace Licensecc.IniHeap
open Ini hiding getValue setKey load
open IniStore (Options insertBy SortedS SortedW Inv)
open IniMem (less)

/-! ## Sections in a sorted list -/

section
variable {α : Type} {N : α → Bytes}

theorem takeWhile_congr {p q : α → Bool} : ∀ {l : List α}, (∀ e ∈ l, p e = q e) → l.takeWhile p = l.takeWhile q ∧ l.dropWhile p = l.dropWhile q
  | [], _ => ⟨rfl, rfl⟩
  | e :: l, h => by
    have ih := takeWhile_congr (p := p) (q := q) (l := l) fun e he => h e (List.mem_cons_of_mem _ he)
    rw [List.takeWhile_cons, List.takeWhile_cons, List.dropWhile_cons, List.dropWhile_cons, h e (by simp), ih.1, ih.2]
    exact ⟨rfl, rfl⟩

theorem sortedS_W {l : List α} (h : SortedS N l) : SortedW N l := h.imp fun hl => IniStore.le_of_less hl

theorem found_split {l : List α} (h : SortedS N l) {t : Bytes} {e : α} {after : List α} (hr : l.dropWhile (fun e => less (N e) t) = e :: after)
    (hf : first N t (e :: after) = true) :
    l = l.takeWhile (fun e => less (N e) t) ++ e :: after ∧ sameName (N e) t = true
    ∧ (∀ a ∈ l.takeWhile (fun e => less (N e) t), sameName (N a) t = false) ∧ (∀ a ∈ after, sameName (N a) t = false) := by
  have hl : l = l.takeWhile (fun e => less (N e) t) ++ e :: after := by
    conv => lhs; rw [← List.takeWhile_append_dropWhile (p := fun e => less (N e) t) (l := l), hr]
  have hs : sameName (N e) t = true :=
    IniStore.same_iff.mpr ⟨dropWhile_lower (sortedS_W h) e (by rw [hr]; simp), by simpa [first] using hf⟩
  refine ⟨hl, hs, fun a ha => IniStore.less_not_same (takeWhile_lower a ha), fun a ha => ?_⟩
  have hp : SortedS N (e :: after) := by
    refine List.Pairwise.sublist ?_ h
    rw [← hr]; exact List.dropWhile_sublist _
  have := (List.pairwise_cons.mp hp).1 a ha
  rw [IniStore.less_same_left hs] at this
  exact IniStore.less_not_same' this

theorem not_found {l : List α} (h : SortedS N l) {t : Bytes} (hf : first N t (l.dropWhile (fun e => less (N e) t)) = false) :
    (∀ a ∈ l, sameName (N a) t = false) ∧
    ∀ x, N x = t → insertBy N x l = l.takeWhile (fun e => less (N e) t) ++ x :: l.dropWhile (fun e => less (N e) t) := by
  have hno : ∀ a ∈ l, sameName (N a) t = false := by
    intro a ha
    cases hs : sameName (N a) t with
    | false => rfl
    | true =>
      have : l.filter (fun e => sameName (N e) t) ≠ [] := by
        intro h0
        rw [List.filter_eq_nil_iff] at h0
        exact h0 a ha hs
      rw [(first_iff (sortedS_W h) t).mpr this] at hf
      cases hf
  refine ⟨hno, fun x hx => ?_⟩
  unfold insertBy
  rw [hx]
  have hc : ∀ e ∈ l, (!less t (N e)) = less (N e) t := by
    intro e he
    rcases IniStore.less_or (N e) t with h | h | h
    · rw [h, IniStore.less_asymm h]; rfl
    · rw [hno e he] at h; cases h
    · rw [h, IniStore.less_asymm h]; rfl
  obtain ⟨h1, h2⟩ := takeWhile_congr hc
  rw [h1, h2]
end

/-! ## The object -/

/-- All strings of a section. -/
def Sect.ptrs (e : Sect) : List Ptr := (e.name :: e.comment.toList) ++ e.keys.flatMap Key.ptrs

/-- All strings of an object. -/
def Obj.ptrs (x : Obj) : List Ptr := x.fileComment.toList ++ x.sections.flatMap Sect.ptrs

/-- A section with texts in place of addresses. -/
def viewSect (m : Mem) (e : Sect) : IniStore.Sect := ⟨tx m e.name, e.comment.map (tx m), e.order, e.keys.map (viewKey m)⟩

/-- An object with texts in place of addresses. -/
def view (x : Obj) : IniStore.Store := ⟨x.fileComment.map (tx x.mem), x.sections.map (viewSect x.mem), x.order⟩

/-- What holds of every object. -/
structure ObjOk (x : Obj) : Prop where
  mem : MemOk x.mem
  held : ∀ p ∈ x.ptrs, Held x.mem p
  nodup : (ids x.ptrs).Nodup
  inv : Inv { multiKey := true } (view x)

theorem map_tx_frame {D : List Nat} {m m' : Mem} {c : Option Ptr} (h : ∀ p, c = some p → Held m p) (hf : Frame D m m')
    (hD : ∀ p, c = some p → ∀ n ∈ D, p ≠ .own n) : c.map (tx m') = c.map (tx m) := by
  cases c with
  | none => rfl
  | some p => simp only [Option.map_some]; rw [tx_frame (h p rfl) hf (hD p rfl)]

theorem viewSect_frame {D : List Nat} {m m' : Mem} {e : Sect} (h : ∀ p ∈ e.ptrs, Held m p) (hf : Frame D m m')
    (hD : ∀ n ∈ D, Ptr.own n ∉ e.ptrs) : viewSect m' e = viewSect m e := by
  unfold viewSect
  have hk : ∀ q ∈ e.keys, ∀ p ∈ q.ptrs, p ∈ e.ptrs := fun q hq p hp => List.mem_append_right _ (List.mem_flatMap.mpr ⟨q, hq, hp⟩)
  have hn : e.name ∈ e.ptrs := by simp [Sect.ptrs]
  have hcm : ∀ p, e.comment = some p → p ∈ e.ptrs := fun p hp => by simp [Sect.ptrs, hp]
  rw [tx_frame (h _ hn) hf fun n hn' hh => hD n hn' (hh ▸ hn)]
  rw [map_tx_frame (fun p hp => h p (hcm p hp)) hf fun p hp n hn' hh => hD n hn' (hh ▸ hcm p hp)]
  rw [List.map_congr_left fun q hq => viewKey_frame (fun p hp => h p (hk q hq p hp)) hf fun n hn' hp => hD n hn' (hk q hq _ hp)]

/-- Where sections and keys come from. -/
def OriginObj (n : Nat) (x x' : Obj) : Prop :=
  ∀ e ∈ x'.sections, (∃ e0 ∈ x.sections, e.name = e0.name ∧ ∀ q ∈ e.keys, Origin n e0.keys q)
    ∨ (New n e.name ∧ ∀ q ∈ e.keys, New n q.name ∧ New n q.value)

theorem Origin.self {n : Nat} {keys : List Key} {q : Key} (h : q ∈ keys) : Origin n keys q := .inl ⟨q, h, rfl, .inl rfl⟩

theorem OriginObj.self {n : Nat} {x x' : Obj} (h : ∀ e ∈ x'.sections, ∃ e0 ∈ x.sections, e.name = e0.name ∧ ∀ q ∈ e.keys, q ∈ e0.keys) :
    OriginObj n x x' := fun e he => .inl ((h e he).imp fun _ h => ⟨h.1, h.2.1, fun q hq => Origin.self (h.2.2 q hq)⟩)

/-- The keys of a section are replaced. -/
theorem replaceKeys_ok {copy : Bool} {m m' : Mem} (hm : MemOk m) {D : List Nat} (hf : Frame D m m') {c : Option Ptr} {R : List Ptr} {keys keys' : List Key}
    (hR : ∀ p ∈ R, Held m p) (hd : (ids (R ++ (c.toList ++ keys.flatMap Key.ptrs))).Nodup)
    (hD : ∀ n ∈ D, n ∈ ids (c.toList ++ keys.flatMap Key.ptrs)) (ha : KeysAfter copy m m' c keys keys') :
    (∀ n ∈ D, Ptr.own n ∉ R) ∧ (∀ p ∈ R, Held m' p) ∧ (ids (R ++ keys'.flatMap Key.ptrs)).Nodup := by
  rw [ids_append, List.nodup_append] at hd
  have h1 : ∀ n ∈ D, Ptr.own n ∉ R := fun n hn hp => hd.2.2 n (mem_ids.mpr hp) n (hD n hn) rfl
  refine ⟨h1, fun p hp => (hR p hp).frame hf fun n hn hh => h1 n hn (hh ▸ hp), ?_⟩
  rw [ids_append, List.nodup_append]
  refine ⟨hd.1, ha.nodup, ?_⟩
  intro a haR b hb hab
  subst hab
  rcases ha.ids a hb with h | h
  · exact hd.2.2 a haR a h rfl
  · obtain ⟨t, ht⟩ := (hR _ (mem_ids.mp haR)).2
    have := text_bound hm ht
    omega

theorem ptrs_perm (x : Obj) {lo after : List Sect} {e : Sect} (h : x.sections = lo ++ e :: after) :
    x.ptrs.Perm ((x.fileComment.toList ++ (lo.flatMap Sect.ptrs ++ ((e.name :: e.comment.toList) ++ after.flatMap Sect.ptrs))) ++ e.keys.flatMap Key.ptrs) := by
  unfold Obj.ptrs
  rw [h, List.flatMap_append, List.flatMap_cons]
  conv => lhs; unfold Sect.ptrs
  have : (Sect.ptrs e) = (e.name :: e.comment.toList) ++ e.keys.flatMap Key.ptrs := rfl
  simp only [List.append_assoc]
  refine (List.Perm.append_left _ (List.Perm.append_left _ (List.Perm.append_left _ ?_)))
  exact List.perm_append_comm

/-- What a call releases of the strings it finds: names and values of the keys of that name in the sections of that name. -/
def releasedObj (o : Options) (x : Obj) (force : Bool) (ts tk : Bytes) : List Nat :=
  if o.multiKey && force then
    ids (((x.sections.filter fun e => sameName (tx x.mem e.name) ts).flatMap fun e => named x.mem tk e.keys).flatMap Key.strings)
  else []

theorem IniStore_findSection_found {x : Obj} (hx : ObjOk x) {ts : Bytes} {e : Sect} {after : List Sect}
    (hr : x.sections.dropWhile (fun e => less (tx x.mem e.name) ts) = e :: after) (hf : first (fun e : Sect => tx x.mem e.name) ts (e :: after) = true) :
    IniStore.findSection (view x) ts = some (viewSect x.mem e) ∧ sameName (tx x.mem e.name) ts = true
    ∧ x.sections = x.sections.takeWhile (fun e => less (tx x.mem e.name) ts) ++ e :: after
    ∧ (∀ a ∈ x.sections.takeWhile (fun e => less (tx x.mem e.name) ts), sameName (tx x.mem a.name) ts = false)
    ∧ (∀ a ∈ after, sameName (tx x.mem a.name) ts = false) := by
  have hs : SortedS (fun e : Sect => tx x.mem e.name) x.sections := by
    have h := hx.inv.sorted
    unfold SortedS at h ⊢
    unfold view at h
    rw [List.pairwise_map] at h
    exact h
  obtain ⟨h1, h2, h3, h4⟩ := found_split hs hr hf
  refine ⟨?_, h2, h1, h3, h4⟩
  unfold IniStore.findSection view
  simp only
  rw [h1, List.map_append, List.map_cons, List.find?_append]
  have : ((x.sections.takeWhile (fun e => less (tx x.mem e.name) ts)).map (viewSect x.mem)).find? (fun e => sameName e.name ts) = none := by
    rw [List.find?_eq_none]
    intro a ha
    obtain ⟨b, hb, rfl⟩ := List.mem_map.mp ha
    have := h3 b hb
    show ¬ sameName (tx x.mem b.name) ts = true
    rw [this]; simp
  rw [this, List.find?_cons_of_pos (by exact h2)]
  rfl

theorem onSection_found {m : Mem} {ts : Bytes} {lo after : List Sect} {e : Sect} (f : List IniStore.Key → List IniStore.Key)
    (h2 : sameName (tx m e.name) ts = true) (h3 : ∀ a ∈ lo, sameName (tx m a.name) ts = false) (h4 : ∀ a ∈ after, sameName (tx m a.name) ts = false) :
    IniStore.onSection ts f ((lo ++ e :: after).map (viewSect m))
      = lo.map (viewSect m) ++ { viewSect m e with keys := f (viewSect m e).keys } :: after.map (viewSect m)
    ∧ ((lo ++ e :: after).map (viewSect m)).filter (fun e => !sameName e.name ts) = (lo ++ after).map (viewSect m) := by
  have hv : ∀ a, (viewSect m a).name = tx m a.name := fun _ => rfl
  have hid : ∀ l : List Sect, (∀ a ∈ l, sameName (tx m a.name) ts = false) →
      (l.map (viewSect m)).map (fun e => if sameName e.name ts then { e with keys := f e.keys } else e) = l.map (viewSect m)
      ∧ (l.map (viewSect m)).filter (fun e => !sameName e.name ts) = l.map (viewSect m) := by
    intro l hl
    constructor
    · rw [List.map_map]
      refine List.map_congr_left fun a ha => ?_
      simp only [Function.comp, hv]
      rw [hl a ha]; rfl
    · rw [List.filter_eq_self]
      intro b hb
      obtain ⟨a, ha, rfl⟩ := List.mem_map.mp hb
      rw [hv, hl a ha]; rfl
  constructor
  · unfold IniStore.onSection
    rw [List.map_append, List.map_cons, List.map_append, List.map_cons, (hid lo h3).1, (hid after h4).1, hv, h2]
    rfl
  · rw [List.map_append, List.map_cons, List.filter_append, List.filter_cons, (hid lo h3).2, (hid after h4).2, hv, h2, List.map_append]
    rfl

theorem hN_sections {x : Obj} (hx : ObjOk x) : ∀ e ∈ x.sections, x.mem.text e.name = some (tx x.mem e.name) := fun e he =>
  (hx.held e.name (List.mem_append_right _ (List.mem_flatMap.mpr ⟨e, he, by simp [Sect.ptrs]⟩))).text

/-- The strings of a key of a section of the object. -/
theorem mem_ptrs_key {x : Obj} {e : Sect} (he : e ∈ x.sections) {q : Key} (hq : q ∈ e.keys) {p : Ptr} (hp : p ∈ q.ptrs) : p ∈ x.ptrs :=
  List.mem_append_right _ (List.mem_flatMap.mpr ⟨e, he, List.mem_append_right _ (List.mem_flatMap.mpr ⟨q, hq, hp⟩)⟩)

theorem mem_ptrs_name {x : Obj} {e : Sect} (he : e ∈ x.sections) : e.name ∈ x.ptrs :=
  List.mem_append_right _ (List.mem_flatMap.mpr ⟨e, he, by simp [Sect.ptrs]⟩)

theorem mem_ptrs_comment {x : Obj} {e : Sect} (he : e ∈ x.sections) {p : Ptr} (hp : e.comment = some p) : p ∈ x.ptrs :=
  List.mem_append_right _ (List.mem_flatMap.mpr ⟨e, he, by simp [Sect.ptrs, hp]⟩)

theorem mem_ptrs_sect {x : Obj} {e : Sect} (he : e ∈ x.sections) {p : Ptr} (hp : p ∈ e.ptrs) : p ∈ x.ptrs :=
  List.mem_append_right _ (List.mem_flatMap.mpr ⟨e, he, hp⟩)

theorem id_bound {x : Obj} (hx : ObjOk x) {i : Nat} (h : i ∈ ids x.ptrs) : i < x.mem.next := by
  obtain ⟨t, ht⟩ := (hx.held _ (mem_ids.mp h)).2
  exact text_bound hx.mem ht

theorem sortedS_sections {x : Obj} (hx : ObjOk x) : SortedS (fun e : Sect => tx x.mem e.name) x.sections := by
  have h := hx.inv.sorted
  unfold SortedS at h ⊢
  unfold view at h
  rw [List.pairwise_map] at h
  exact h

theorem perm_swap3 {α : Type} (a b c : List α) : (a ++ (b ++ c)).Perm (b ++ (a ++ c)) := by
  rw [← List.append_assoc, ← List.append_assoc]
  exact List.perm_append_comm.append_right c

/-- `AddEntry` for an existing section, after the comment has been copied. -/
theorem setInSection_ok {o : Options} {x : Obj} (hx : ObjOk x) {s k v : Ptr} {c : Option Ptr} {force copy : Bool} {ts tk tv : Bytes}
    (hs : x.mem.text s = some ts) (hk : x.mem.text k = some tk) (hv : x.mem.text v = some tv) (hc : ∀ p, c = some p → Held x.mem p)
    (hcs : ∀ i, c = some (.own i) → s ≠ .own i ∧ k ≠ .own i ∧ v ≠ .own i)
    (hcopy : copy = false → (∃ i u, k = .block i u) ∧ ∃ i u, v = .block i u)
    (hd : (ids (c.toList ++ x.ptrs)).Nodup)
    {e : Sect} {lo after : List Sect} (hsec : x.sections = lo ++ e :: after) (hsame : sameName (tx x.mem e.name) ts = true)
    (hlo : ∀ a ∈ lo, sameName (tx x.mem a.name) ts = false) (haf : ∀ a ∈ after, sameName (tx x.mem a.name) ts = false)
    (halias : o.multiKey = true → force = true → ∀ q ∈ named x.mem tk e.keys, k ∉ q.strings ∧ v ∉ q.strings) (n : Nat) :
    ∃ b keys' m', setKey o s k v c force copy n e.keys x.mem = .ok (b, keys', m') ∧ MemOk m'
      ∧ Frame (ids c.toList ++ released o x.mem force tk e.keys) x.mem m'
      ∧ (let x' : Obj := { x with mem := m', order := n, sections := lo ++ { e with keys := keys' } :: after }
        (∀ p ∈ x'.ptrs, Held m' p) ∧ (ids x'.ptrs).Nodup
        ∧ b = (IniStore.setKey o tk tv (c.map (tx x.mem)) force n (e.keys.map (viewKey x.mem))).1
        ∧ view x' = { view x with order := n, sections := (IniStore.onSection ts (fun _ =>
            (IniStore.setKey o tk tv (c.map (tx x.mem)) force n (e.keys.map (viewKey x.mem))).2) (view x).sections) }
        ∧ OriginObj x.mem.next x x' ∧ KeysAfter copy x.mem m' c e.keys keys'
        ∧ ∀ p ∈ x'.ptrs, p ∈ c.toList ++ x.ptrs ∨ Made copy x.mem.next m'.next p) := by
  have he : e ∈ x.sections := by rw [hsec]; simp
  have hpe := ptrs_perm x hsec
  have hheld : ∀ q ∈ e.keys, ∀ p ∈ q.ptrs, Held x.mem p := fun q hq p hp => hx.held p (mem_ptrs_key he hq hp)
  have hkeys : SortedW IniStore.Key.name (e.keys.map (viewKey x.mem)) :=
    (hx.inv.keys (viewSect x.mem e) (List.mem_map.mpr ⟨e, he, rfl⟩)).sorted
  have hd' : (ids ((x.fileComment.toList ++ (lo.flatMap Sect.ptrs ++ ((e.name :: e.comment.toList) ++ after.flatMap Sect.ptrs)))
      ++ (c.toList ++ e.keys.flatMap Key.ptrs))).Nodup := by
    refine (ids_perm ?_).nodup_iff.mp hd
    exact (hpe.append_left c.toList).trans (perm_swap3 _ _ _)
  have hdk : (ids (c.toList ++ e.keys.flatMap Key.ptrs)).Nodup := by
    rw [ids_append, List.nodup_append] at hd'
    exact hd'.2.1
  obtain ⟨b, keys', m', h1, h2, h3, h4, h5⟩ := setKey_ok o hx.mem n hs hk hv hc hcs hcopy hheld hdk hkeys halias
  refine ⟨b, keys', m', h1, h2, h3, ?_⟩
  have hR : ∀ p ∈ x.fileComment.toList ++ (lo.flatMap Sect.ptrs ++ ((e.name :: e.comment.toList) ++ after.flatMap Sect.ptrs)), Held x.mem p :=
    fun p hp => hx.held p (hpe.mem_iff.mpr (List.mem_append_left _ hp))
  have hrel : ∀ i ∈ ids c.toList ++ released o x.mem force tk e.keys, i ∈ ids (c.toList ++ e.keys.flatMap Key.ptrs) := by
    intro i hi
    rw [ids_append]
    rcases List.mem_append.mp hi with hi | hi
    · exact List.mem_append_left _ hi
    · refine List.mem_append_right _ ?_
      unfold released at hi
      split at hi
      · exact (ids_sublist ((strings_sublist _).trans (flatMap_sublist List.filter_sublist))).subset hi
      · cases hi
  obtain ⟨r1, r2, r3⟩ := replaceKeys_ok hx.mem h3 hR hd' hrel h5
  have hpe' : (({ x with mem := m', order := n, sections := lo ++ { e with keys := keys' } :: after } : Obj).ptrs).Perm
      ((x.fileComment.toList ++ (lo.flatMap Sect.ptrs ++ ((e.name :: e.comment.toList) ++ after.flatMap Sect.ptrs))) ++ keys'.flatMap Key.ptrs) :=
    ptrs_perm { x with mem := m', order := n, sections := lo ++ { e with keys := keys' } :: after } (e := { e with keys := keys' }) rfl
  have hfst : b = (IniStore.setKey o tk tv (c.map (tx x.mem)) force n (e.keys.map (viewKey x.mem))).1 := by rw [← h4]
  have hsnd : keys'.map (viewKey m') = (IniStore.setKey o tk tv (c.map (tx x.mem)) force n (e.keys.map (viewKey x.mem))).2 := by rw [← h4]
  refine ⟨?_, ?_, hfst, ?_, ?_, h5, ?_⟩
  · intro p hp
    rcases List.mem_append.mp (hpe'.mem_iff.mp hp) with hp | hp
    · exact r2 p hp
    · obtain ⟨q, hq, hp⟩ := List.mem_flatMap.mp hp
      exact h5.held q hq p hp
  · exact (ids_perm hpe').nodup_iff.mpr r3
  · unfold view
    simp only
    rw [hsec, (onSection_found _ hsame hlo haf).1, ← hsnd]
    have hfc : x.fileComment.map (tx m') = x.fileComment.map (tx x.mem) := by
      refine map_tx_frame (fun p hp => hx.held p (by simp [Obj.ptrs, hp])) h3 fun p hp i hi hh => r1 i hi ?_
      rw [← hh]; simp [hp]
    have hsv : ∀ l : List Sect, (∀ a ∈ l, a ∈ x.sections) → (∀ a ∈ l, ∀ p ∈ a.ptrs,
        p ∈ x.fileComment.toList ++ (lo.flatMap Sect.ptrs ++ ((e.name :: e.comment.toList) ++ after.flatMap Sect.ptrs))) →
        l.map (viewSect m') = l.map (viewSect x.mem) := by
      intro l hl hl'
      refine List.map_congr_left fun a ha => viewSect_frame (fun p hp => hx.held p (mem_ptrs_sect (hl a ha) hp)) h3 fun i hi hp => ?_
      exact r1 i hi (hl' a ha _ hp)
    rw [hfc, List.map_append, List.map_cons]
    rw [hsv lo (fun a ha => by rw [hsec]; simp [ha]) (fun a ha p hp => by
        refine List.mem_append_right _ (List.mem_append_left _ (List.mem_flatMap.mpr ⟨a, ha, hp⟩))),
      hsv after (fun a ha => by rw [hsec]; simp [ha]) (fun a ha p hp => by
        refine List.mem_append_right _ (List.mem_append_right _ (List.mem_append_right _ (List.mem_flatMap.mpr ⟨a, ha, hp⟩))))]
    have hee : viewSect m' { e with keys := keys' } = { viewSect x.mem e with keys := keys'.map (viewKey m') } := by
      unfold viewSect
      simp only
      have hn : e.name ∈ x.fileComment.toList ++ (lo.flatMap Sect.ptrs ++ ((e.name :: e.comment.toList) ++ after.flatMap Sect.ptrs)) := by simp
      rw [tx_frame (hR _ hn) h3 fun i hi hh => r1 i hi (hh ▸ hn)]
      rw [map_tx_frame (fun p hp => hR p (by simp [hp])) h3 fun p hp i hi hh => r1 i hi (by rw [← hh]; simp [hp])]
    rw [hee]
  · intro a ha
    rcases List.mem_append.mp ha with ha | ha
    · exact .inl ⟨a, by rw [hsec]; simp [ha], rfl, fun q hq => Origin.self hq⟩
    · rcases List.mem_cons.mp ha with rfl | ha
      · exact .inl ⟨e, he, rfl, h5.origin⟩
      · exact .inl ⟨a, by rw [hsec]; simp [ha], rfl, fun q hq => Origin.self hq⟩
  · intro p hp
    rcases List.mem_append.mp (hpe'.mem_iff.mp hp) with hp | hp
    · exact .inl (List.mem_append_right _ (hpe.mem_iff.mpr (List.mem_append_left _ hp)))
    · rcases h5.src p hp with h | h
      · rcases List.mem_append.mp h with h | h
        · exact .inl (List.mem_append_left _ h)
        · exact .inl (List.mem_append_right _ (hpe.mem_iff.mpr (List.mem_append_right _ h)))
      · exact .inr h

end Licensecc.IniHeap
