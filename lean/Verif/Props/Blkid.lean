import Verif.Props.Disks
/-!
# C54: the blkid cache
-/
namespace Licensecc
open Spec

theorem findSub_none_iff (needle s : Bytes) : findSub needle s = none ↔ ¬ needle <:+: s := by
  induction s with
  | nil => by_cases h : needle = [] <;> simp [findSub, h]
  | cons c s ih =>
    rw [findSub, List.infix_cons_iff, ← List.isPrefixOf_iff_prefix]
    by_cases h : needle.isPrefixOf (c :: s) = true
    · simp [h]
    · simp [h, ih]

/-- The first occurrence. -/
theorem findSub_first (needle a b : Bytes) (hne : needle ≠ []) (h : ¬ needle <:+: (a ++ needle.dropLast)) :
    findSub needle (a ++ needle ++ b) = some a.length := by
  induction a with
  | nil =>
    cases needle with
    | nil => exact absurd rfl hne
    | cons x needle =>
      have : (x :: needle).isPrefixOf (x :: (needle ++ b)) = true := by
        rw [List.isPrefixOf_iff_prefix]; exact ⟨b, by simp⟩
      simp [findSub, this]
  | cons c a ih =>
    have hlen : needle.length = needle.dropLast.length + 1 := by
      rw [List.length_dropLast]; have := List.length_pos_iff.mpr hne; omega
    have hnp : ¬ needle <+: (c :: (a ++ needle ++ b)) := by
      intro hp
      apply h
      refine List.IsPrefix.isInfix ?_
      have h2 : (c :: a ++ needle.dropLast) <+: (c :: (a ++ needle ++ b)) := by
        obtain ⟨t, ht⟩ := List.dropLast_prefix needle
        exact ⟨t ++ b, by conv => rhs; rw [← ht]
                          simp⟩
      exact List.prefix_of_prefix_length_le hp h2 (by rw [List.length_append, List.length_cons]; omega)
    have : ¬ needle.isPrefixOf (c :: (a ++ needle ++ b)) = true := by rwa [List.isPrefixOf_iff_prefix]
    simp only [List.cons_append, findSub, this, if_false]
    rw [ih (fun hi => h (by rw [List.cons_append]; exact hi.trans (List.suffix_cons _ _).isInfix))]
    rfl

/-- Nothing is found that would start in front of a text whose letters do not start the needle. -/
theorem infix_skip {x : UInt8} {needle p s : Bytes} (hp : ∀ c ∈ p, c ≠ x) (h : (x :: needle) <:+: (p ++ s)) : (x :: needle) <:+: s := by
  induction p with
  | nil => exact h
  | cons c p ih =>
    rw [List.cons_append, List.infix_cons_iff] at h
    rcases h with h | h
    · rw [List.cons_prefix_cons] at h
      exact absurd h.1.symm (hp c (by simp))
    · exact ih (fun c hc => hp c (by simp [hc])) h

theorem takeWhile_to {v rest : Bytes} {q : UInt8} (hv : q ∉ v) : (v ++ q :: rest).takeWhile (· ≠ q) = v := by
  induction v with
  | nil => simp
  | cons c v ih =>
    have hc : c ≠ q := fun h => hv (by simp [h])
    rw [List.cons_append, List.takeWhile_cons]
    simp only [ne_eq, hc, not_false_eq_true, decide_true, if_true]
    rw [ih (fun h => hv (by simp [h]))]

/-- **C54**: the value found for an attribute. -/
theorem C54_attribute {text name v : Bytes} (h : AttributeIs text name v) : getAttribute text name = .ok v := by
  obtain ⟨pre, post, rfl, hv, hf⟩ := h
  have hd : (name ++ [61, 34] : Bytes).dropLast = name ++ [61] := by simp
  have hfind : findSub (name ++ [61, 34]) (pre ++ (name ++ [61, 34]) ++ (v ++ [34] ++ post)) = some pre.length :=
    findSub_first _ _ _ (by simp) (by rw [hd]; exact hf)
  have e : pre ++ (name ++ [61, 34]) ++ v ++ [34] ++ post = pre ++ (name ++ [61, 34]) ++ (v ++ [34] ++ post) := by simp
  unfold getAttribute
  dsimp only
  rw [e, hfind]
  dsimp only
  rw [if_neg (by simp), ← List.length_append, List.drop_left]
  congr 1
  rw [List.append_assoc]
  exact takeWhile_to hv

/-- **C54**: a missing attribute.  Its value is then the text from a fixed position on up to the next quote; a text that is too
    short raises an exception. -/
theorem C54_missing_attribute {text name : Bytes} (h : ¬ (name ++ [61, 34]) <:+: text) :
    getAttribute text name = if text.length < name.length + 1 then .throw .outOfRange
      else .ok ((text.drop (name.length + 1)).takeWhile (· ≠ 34)) := by
  unfold getAttribute
  dsimp only
  rw [(findSub_none_iff _ _).mpr h]
  have e : (name ++ [61, 34] : Bytes).length - 1 = name.length + 1 := by simp
  dsimp only
  rw [e]

/-- Text before and behind the entry does not matter. -/
theorem attributeIs_embed {text name v p q : Bytes} {x : UInt8} {n : Bytes} (hn : name = x :: n) (hp : ∀ c ∈ p, c ≠ x)
    (h : AttributeIs text name v) : AttributeIs (p ++ text ++ q) name v := by
  obtain ⟨pre, post, rfl, hv, hf⟩ := h
  refine ⟨p ++ pre, post ++ q, by simp, hv, fun hi => hf ?_⟩
  subst hn
  rw [List.append_assoc] at hi
  rw [List.cons_append] at hi ⊢
  exact infix_skip hp hi

/-- Scanning up to the next closing tag. -/
theorem blkidLoop_next (win : Bytes) (n : Nat) (ds : List Disk) (m : UuidMap) (rest : Bytes) : ∀ (s : Bytes) (pos : Nat),
    ¬ b!"</device>" <:+: (s ++ b!"</device") →
    blkidLoop win pos n ds m (s ++ b!"</device>" ++ rest) = (do
      let (d, uuid) ← blkidDevice (win.take (pos + s.length)) n
      blkidLoop (b!"/device>" ++ rest) (pos + s.length + 1) (n + 1) (ds ++ [d]) (m.insert uuid n) (b!"/device>" ++ rest)) := by
  intro s
  induction s with
  | nil =>
    intro pos _
    have : (b!"</device>" ++ rest) = 60 :: (b!"/device>" ++ rest) := rfl
    rw [List.nil_append, this, blkidLoop]
    have hp : (b!"</device>").isPrefixOf (60 :: (b!"/device>" ++ rest)) = true := by
      rw [List.isPrefixOf_iff_prefix]; exact ⟨rest, rfl⟩
    rw [if_pos hp]; rfl
  | cons c s ih =>
    intro pos h
    rw [List.cons_append, List.cons_append, blkidLoop]
    have hnp : ¬ (b!"</device>").isPrefixOf (c :: (s ++ b!"</device>" ++ rest)) = true := by
      rw [List.isPrefixOf_iff_prefix]
      intro hp
      apply h
      refine List.IsPrefix.isInfix (List.prefix_of_prefix_length_le hp ⟨62 :: rest, ?_⟩ ?_)
      · have : (b!"</device>" : Bytes) = b!"</device" ++ [62] := rfl
        rw [this]; simp
      · simp
    rw [if_neg hnp, ih (pos + 1) (fun hi => h (by rw [List.cons_append]; exact hi.trans (List.suffix_cons _ _).isInfix)), List.length_cons,
      show pos + 1 + s.length = pos + (s.length + 1) by omega]

theorem blkidLoop_end (win : Bytes) (n : Nat) (ds : List Disk) (m : UuidMap) : ∀ (s : Bytes) (pos : Nat),
    ¬ b!"</device>" <:+: s → blkidLoop win pos n ds m s = .ok (ds, m) := by
  intro s
  induction s with
  | nil => intros; rfl
  | cons c s ih =>
    intro pos h
    rw [List.infix_cons_iff, not_or] at h
    rw [blkidLoop, if_neg (by rw [List.isPrefixOf_iff_prefix]; exact h.1), ih _ h.2]

/-- What one well-formed entry gives, with text before and behind it. -/
theorem blkidDevice_entry {e : CacheEntry} (he : e.WellFormed) {p q : Bytes} (hp : p = [] ∨ p = b!"/device>") (n : Nat) :
    (¬ roomNeeded e.uuid ≤ e.uuid.length ∧ blkidDevice (p ++ e.text ++ q) n = .ub)
    ∨ (roomNeeded e.uuid ≤ e.uuid.length ∧ ∃ dev, blkidDevice (p ++ e.text ++ q) n
        = .ok (⟨n, dev, serialOf e.uuid, true, e.partLabel.take 254, true, e.type = b!"swap"⟩, e.uuid)) := by
  have hx : ∀ c ∈ p, c ≠ (80 : UInt8) ∧ c ≠ 85 ∧ c ≠ 84 := by
    rcases hp with rfl | rfl
    · simp
    · decide
  have h1 := C54_attribute (attributeIs_embed (h := he.partLabel) (q := q) (n := b!"ARTLABEL") rfl fun c hc => (hx c hc).1)
  have h2 := C54_attribute (attributeIs_embed (h := he.uuid) (q := q) (n := b!"UID") rfl fun c hc => (hx c hc).2.1)
  have h3 := C54_attribute (attributeIs_embed (h := he.type) (q := q) (n := b!"YPE") rfl fun c hc => (hx c hc).2.2)
  have hz : ∀ l : Bytes, (0 : UInt8) ∉ l → l.takeWhile (· ≠ 0) = l := by
    intro l hl
    have := List.takeWhile_append_of_pos (p := fun x : UInt8 => decide (x ≠ 0)) (l₁ := l) (l₂ := [])
      (by intro c hc; simpa using fun h : c = 0 => hl (h ▸ hc))
    rw [List.append_nil, List.takeWhile_nil, List.append_nil] at this
    exact this
  unfold blkidDevice
  rw [h1, h2, h3, Outcome.ok_bind, Outcome.ok_bind, hz _ he.noNul.1, hz _ he.noNul.2, C43_parse]
  by_cases hr : roomNeeded e.uuid ≤ e.uuid.length
  · right
    refine ⟨hr, _, by rw [if_pos hr]; rfl⟩
  · left
    exact ⟨hr, by rw [if_neg hr]; rfl⟩

/-- The disk that entry number `n` gives, apart from the device name. -/
def entryDisk (n : Nat) (e : CacheEntry) (d : Disk) : Prop :=
  d.id = n ∧ d.sn = serialOf e.uuid ∧ d.snInit = true ∧ d.label = e.partLabel.take 254 ∧ d.labelInit = true
    ∧ (d.preferred = true ↔ e.type = b!"swap")

theorem blkidLoop_entries (tail : Bytes) (ht : ¬ b!"</device>" <:+: tail) (es : List CacheEntry) (hes : ∀ e ∈ es, e.WellFormed) :
    ∀ (p : Bytes) (_ : p = [] ∨ p = b!"/device>") (pos n : Nat) (ds : List Disk) (m : UuidMap),
    ((∃ e ∈ es, ¬ roomNeeded e.uuid ≤ e.uuid.length)
      ∧ blkidLoop (p ++ cacheText es tail) pos n ds m (p ++ cacheText es tail) = .ub)
    ∨ ((∀ e ∈ es, roomNeeded e.uuid ≤ e.uuid.length)
      ∧ ∃ new, blkidLoop (p ++ cacheText es tail) pos n ds m (p ++ cacheText es tail)
          = .ok (ds ++ new, m ++ ((es.map CacheEntry.uuid).zipIdx n).map fun q => (q.1, (q.2 : Int)))
        ∧ new.length = es.length ∧ ∀ (i : Nat) (e : CacheEntry), es[i]? = some e → ∃ d, new[i]? = some d ∧ entryDisk (n + i) e d) := by
  induction es with
  | nil =>
    intro p hp pos n ds m
    right
    refine ⟨by simp, [], ?_, rfl, by simp⟩
    have hc : ∀ c ∈ p, c ≠ (60 : UInt8) := by
      rcases hp with rfl | rfl
      · simp
      · decide
    rw [show cacheText [] tail = tail by simp [cacheText]]
    rw [blkidLoop_end _ _ _ _ _ _ (fun hi => ht (infix_skip hc hi))]
    simp
  | cons e es ih =>
    intro p hp pos n ds m
    have hc : ∀ c ∈ p, c ≠ (60 : UInt8) := by
      rcases hp with rfl | rfl
      · simp
      · decide
    have he := hes e (by simp)
    have hsplit : p ++ cacheText (e :: es) tail = (p ++ e.text) ++ b!"</device>" ++ cacheText es tail := by
      simp [cacheText]
    have hcl : ¬ b!"</device>" <:+: (p ++ e.text ++ b!"</device") := by
      rw [List.append_assoc]; exact fun hi => he.closed (infix_skip hc hi)
    rw [hsplit, blkidLoop_next _ _ _ _ _ _ _ hcl]
    obtain ⟨q, hq⟩ : ∃ q, ((p ++ e.text) ++ b!"</device>" ++ cacheText es tail).take (pos + (p ++ e.text).length) = p ++ e.text ++ q := by
      rw [List.append_assoc (p ++ e.text), List.take_append]
      exact ⟨_, by rw [List.take_of_length_le (by omega)]⟩
    rw [hq]
    rcases blkidDevice_entry he (q := q) hp n with ⟨h1, h2⟩ | ⟨h1, dev, h2⟩
    · left; exact ⟨⟨e, by simp, h1⟩, by rw [h2]; rfl⟩
    · rw [h2, Outcome.ok_bind]
      dsimp only
      rcases ih (fun e he => hes e (by simp [he])) b!"/device>" (.inr rfl) (pos + (p ++ e.text).length + 1) (n + 1)
        (ds ++ [⟨n, dev, serialOf e.uuid, true, e.partLabel.take 254, true, e.type = b!"swap"⟩]) (m.insert e.uuid n) with
        ⟨⟨x, hx, h3⟩, h4⟩ | ⟨h3, new, h4, h5, h6⟩
      · left; exact ⟨⟨x, by simp [hx], h3⟩, h4⟩
      · right
        refine ⟨by simpa [h1] using h3, ⟨n, dev, serialOf e.uuid, true, e.partLabel.take 254, true, e.type = b!"swap"⟩ :: new, by rw [h4]; simp [UuidMap.insert], by simp [h5], ?_⟩
        intro i x hi
        cases i with
        | zero => simp at hi; subst hi; exact ⟨_, rfl, rfl, rfl, rfl, rfl, rfl, by simp⟩
        | succ i =>
          obtain ⟨d, hd, hd'⟩ := h6 i x (by simpa using hi)
          exact ⟨d, by simpa using hd, by rw [show n + (i + 1) = n + 1 + i by omega]; exact hd'⟩

/-- **C54**: a cache file of well-formed entries: one disk per entry, in order, numbered from 0, with the serial number of the
    UUID and the PARTLABEL as label; swap partitions are preferred.  If a UUID leaves no room for the terminator in the scratch
    buffer, memory is overrun. -/
theorem C54_cache (es : List CacheEntry) (tail : Bytes) (hes : ∀ e ∈ es, e.WellFormed) (ht : ¬ b!"</device>" <:+: tail) :
    (parseBlkid (cacheText es tail) [] [] = .ub ↔ ∃ e ∈ es, e.uuid.length < roomNeeded e.uuid)
    ∧ ((∀ e ∈ es, roomNeeded e.uuid ≤ e.uuid.length) → ∃ ds m, parseBlkid (cacheText es tail) [] [] = .ok (.ok, ds, m)
      ∧ ds.length = es.length
      ∧ (∀ (i : Nat) (e : CacheEntry), es[i]? = some e → ∃ d, ds[i]? = some d ∧ d.id = i ∧ d.sn = serialOf e.uuid ∧ d.snInit = true
          ∧ d.label = e.partLabel.take 254 ∧ d.labelInit = true ∧ (d.preferred = true ↔ e.type = b!"swap"))
      ∧ m = ((es.map CacheEntry.uuid).zipIdx).map fun q => (q.1, (q.2 : Int))) := by
  unfold parseBlkid
  rcases blkidLoop_entries tail ht es hes [] (.inl rfl) 0 0 [] [] with ⟨⟨e, he, h1⟩, h2⟩ | ⟨h1, new, h2, h3, h4⟩
  · rw [List.nil_append] at h2
    rw [h2]
    exact ⟨⟨fun _ => ⟨e, he, by omega⟩, fun _ => rfl⟩, fun h => absurd (h e he) h1⟩
  · rw [List.nil_append, List.nil_append, List.nil_append] at h2
    rw [h2]
    refine ⟨⟨fun h => by simp at h, fun ⟨e, he, h⟩ => by have := h1 e he; omega⟩, fun _ => ⟨new, _, rfl, h3, ?_, rfl⟩⟩
    intro i e hi
    obtain ⟨d, hd, hd'⟩ := h4 i e hi
    rw [Nat.zero_add] at hd'
    exact ⟨d, hd, hd'⟩

/-- When nothing is usable in /dev/disk/by-uuid: the first cache file that can be opened is read, and nothing else. -/
theorem C54_when_used {h : DiskHost} (hu : ∀ es, h.byUuid = some es → usable es = []) :
    getDiskInfos h =
      match h.blkidRun, h.blkidEtc with
      | none, none => .ok (.notAvail, [])
      | some c, _ => (do let (r, ds, m) ← parseBlkid c [] []; return (r, ← setPreferredDisks h ds m))
      | none, some c => (do let (r, ds, m) ← parseBlkid c [] []; return (r, ← setPreferredDisks h ds m)) := by
  have hdev : getDiskInfosDev h = .ok (.notAvail, [], []) := by
    have hlab : readDiskLabels h [] = [] := readDiskLabels_spec h [] .nil
    cases hb : h.byUuid with
    | none => unfold getDiskInfosDev; rw [hb]; simp [hlab]
    | some es =>
      have h0 := hu es hb
      cases hg : getDiskInfosDev h with
      | ub =>
        rw [C53_undefined_iff hb] at hg
        obtain ⟨b, e, a, i, rfl, h2, _⟩ := hg
        have : usable (b ++ e :: a) = usable b ++ usable [e] ++ usable a := by simp [usable, ← List.filterMap_append]
        rw [this, h2] at h0; simp at h0
      | throw e =>
        exfalso
        have : ∀ es (ds : List Disk) (m : UuidMap), uuidLoop es ds m ≠ .throw e := by
          intro es
          induction es with
          | nil => intro ds m; simp [uuidLoop]
          | cons x es ih =>
            intro ds m
            rw [uuidLoop]
            split
            · intro hh
              rw [Outcome.bind_eq_throw] at hh
              rcases hh with hh | ⟨a, _, hh⟩
              · unfold addUuidEntry at hh
                split at hh
                · simp at hh
                · split at hh
                  · rw [C43_parse] at hh
                    split at hh <;> simp at hh
                  · simp at hh
              · exact ih _ _ hh
            · simp
        unfold getDiskInfosDev at hg
        rw [hb] at hg
        rw [Outcome.bind_eq_throw] at hg
        rcases hg with hg | ⟨a, _, hg⟩
        · exact this _ _ _ hg
        · simp at hg
      | ok x =>
        obtain ⟨r, ds, m⟩ := x
        obtain ⟨_, s2, ⟨pre, post, p1, p2, _⟩, _⟩ := getDiskInfosDev_spec hb hg
        obtain ⟨rfl, rfl⟩ := s2 h0
        have : usable pre = [] := by
          have : usable es = usable pre ++ usable post := by rw [p1]; simp [usable]
          rw [h0] at this
          simpa using (List.append_eq_nil_iff.mp this.symm).1
        rw [p2, this]
  unfold getDiskInfos
  rw [hdev, Outcome.ok_bind]
  simp only [ne_eq, reduceCtorEq, not_false_eq_true, if_true]
  unfold getDiskInfosBlkid
  have hret : ∀ c, ((parseBlkid c [] [] >>= fun x => (if x.1 = .ok then do return (x.1, ← setPreferredDisks h x.2.1 x.2.2) else return (x.1, x.2.1))) : Outcome _)
      = (do let (r, ds, m) ← parseBlkid c [] []; return (r, ← setPreferredDisks h ds m)) := by
    intro c
    unfold parseBlkid
    cases blkidLoop c 0 0 [] [] c <;> rfl
  cases h1 : h.blkidRun with
  | some c => exact hret c
  | none =>
    cases h2 : h.blkidEtc with
    | some c => exact hret c
    | none => rfl

/-- **C54** (entries of disks without partition label, as on every disk with an MBR): the label of the first disk is then part of
    the markup, and so the same on all machines. -/
theorem C54_missing_label_is_markup {text rest : Bytes} (ht : text = b!"<device DEVNO=" ++ 34 :: rest)
    (hno : ¬ b!"PARTLABEL=" ++ [34] <:+: text) : getAttribute text b!"PARTLABEL" = .ok b!"VNO=" := by
  rw [C54_missing_attribute (name := b!"PARTLABEL") (by simpa using hno), if_neg (by subst ht; simp)]
  subst ht
  rfl

theorem blkidLoop_grows : ∀ (s win : Bytes) (pos n : Nat) (ds ds' : List Disk) (m m' : UuidMap), blkidLoop win pos n ds m s = .ok (ds', m') →
    ∃ new, ds' = ds ++ new := by
  intro s
  induction s with
  | nil => intro win pos n ds ds' m m' h; simp [blkidLoop] at h; exact ⟨[], by simp [h.1]⟩
  | cons c s ih =>
    intro win pos n ds ds' m m' h
    rw [blkidLoop] at h
    split at h
    · obtain ⟨x, _, h⟩ := Outcome.bind_eq_ok.mp h
      obtain ⟨new, hn⟩ := ih _ _ _ _ _ _ _ h
      exact ⟨x.1 :: new, by simp [hn]⟩
    · exact ih _ _ _ _ _ _ _ h

/-- **C54**: the device of the first entry is the text between its opening and its closing tag. (From the second entry on the window reaches too far,
    and so may the device.) -/
theorem C54_device {opening dev rest : Bytes} (h1 : ¬ b!"</device>" <:+: (opening ++ 62 :: dev ++ b!"</device")) (hd : 62 ∉ dev) {ds : List Disk} {m : UuidMap}
    (hok : parseBlkid (opening ++ 62 :: dev ++ b!"</device>" ++ rest) [] [] = .ok (.ok, ds, m)) :
    ∃ d, ds[0]? = some d ∧ d.device = (dev.takeWhile (· ≠ 0)).take 1023 := by
  unfold parseBlkid at hok
  obtain ⟨⟨ds0, m0⟩, hk, hr⟩ := Outcome.bind_eq_ok.mp hok
  simp only [Outcome.pure_eq, Outcome.ok.injEq, Prod.mk.injEq, true_and] at hr
  obtain ⟨rfl, rfl⟩ := hr
  rw [blkidLoop_next _ _ _ _ _ _ _ h1] at hk
  obtain ⟨⟨x, u⟩, hx, hk⟩ := Outcome.bind_eq_ok.mp hk
  obtain ⟨new, hn⟩ := blkidLoop_grows _ _ _ _ _ _ _ _ hk
  have ht : (opening ++ 62 :: dev ++ b!"</device>" ++ rest).take (0 + (opening ++ 62 :: dev).length) = opening ++ 62 :: dev := by
    rw [Nat.zero_add, List.append_assoc (opening ++ 62 :: dev), List.take_left']
    rfl
  have hg : afterLastGt (opening ++ 62 :: dev) = dev := by
    unfold afterLastGt
    rw [List.reverse_append, List.reverse_cons, List.append_assoc]
    have : (dev.reverse ++ ([62] ++ opening.reverse)).takeWhile (fun c => decide (c ≠ (62 : UInt8))) = dev.reverse := by
      rw [List.takeWhile_append_of_pos]
      · simp
      · intro c hc
        have : c ∈ dev := List.mem_reverse.mp hc
        simpa using fun h : c = 62 => hd (h ▸ this)
    rw [this, List.reverse_reverse]
  rw [ht] at hx
  unfold blkidDevice at hx
  rw [hg] at hx
  obtain ⟨_, _, hx⟩ := Outcome.bind_eq_ok.mp hx
  obtain ⟨_, _, hx⟩ := Outcome.bind_eq_ok.mp hx
  obtain ⟨_, _, hx⟩ := Outcome.bind_eq_ok.mp hx
  obtain ⟨_, _, hx⟩ := Outcome.bind_eq_ok.mp hx
  simp only [Outcome.pure_eq, Outcome.ok.injEq, Prod.mk.injEq] at hx
  refine ⟨x, by rw [hn]; rfl, by rw [← hx.1]⟩

/-- **C54** (`substr(oldpos, pos)`): from the second entry on, an attribute that the entry lacks is taken from the entry behind,
    as far as the text that the window covers. -/
theorem C54_borrowed_label {first second third rest label : Bytes}
    (h1 : ¬ b!"</device>" <:+: (first ++ b!"</device")) (h2 : ¬ b!"</device>" <:+: (second ++ b!"</device"))
    (hlabel : AttributeIs (second ++ b!"</device>" ++ third) b!"PARTLABEL" label) (hroom : third.length + 8 ≤ first.length)
    {ds : List Disk} {m : UuidMap}
    (hok : parseBlkid (first ++ b!"</device>" ++ (second ++ b!"</device>" ++ (third ++ rest))) [] [] = .ok (.ok, ds, m)) :
    ∃ d, ds[1]? = some d ∧ d.label = (label.takeWhile (· ≠ 0)).take 254 := by
  have hmono := blkidLoop_grows
  unfold parseBlkid at hok
  obtain ⟨⟨ds0, m0⟩, hk, hr⟩ := Outcome.bind_eq_ok.mp hok
  simp only [Outcome.pure_eq, Outcome.ok.injEq, Prod.mk.injEq, true_and] at hr
  obtain ⟨rfl, rfl⟩ := hr
  rw [blkidLoop_next _ _ _ _ _ _ _ h1] at hk
  obtain ⟨x1, _, hk1⟩ := Outcome.bind_eq_ok.mp hk
  dsimp only at hk1
  have hc : ∀ c ∈ (b!"/device>" : Bytes), c ≠ (60 : UInt8) := by decide
  have hcl : ¬ b!"</device>" <:+: (b!"/device>" ++ second ++ b!"</device") := by
    rw [List.append_assoc]; exact fun hi => h2 (infix_skip hc hi)
  have hs : b!"/device>" ++ (second ++ b!"</device>" ++ (third ++ rest))
      = (b!"/device>" ++ second) ++ b!"</device>" ++ (third ++ rest) := by simp
  rw [hs, blkidLoop_next _ _ _ _ _ _ _ hcl] at hk1
  obtain ⟨⟨x2, u2⟩, hx2, hk2⟩ := Outcome.bind_eq_ok.mp hk1
  obtain ⟨new, hn⟩ := hmono _ _ _ _ _ _ _ _ hk2
  obtain ⟨q, hq⟩ : ∃ q, ((b!"/device>" ++ second) ++ b!"</device>" ++ (third ++ rest)).take
      (0 + first.length + 1 + (b!"/device>" ++ second).length) = b!"/device>" ++ (second ++ b!"</device>" ++ third) ++ q := by
    have : (b!"/device>" ++ second) ++ b!"</device>" ++ (third ++ rest) = (b!"/device>" ++ (second ++ b!"</device>" ++ third)) ++ rest := by
      simp
    rw [this, List.take_append]
    exact ⟨_, by rw [List.take_of_length_le (by simp; omega)]⟩
  rw [hq] at hx2
  have hx : ∀ c ∈ (b!"/device>" : Bytes), c ≠ (80 : UInt8) := by decide
  have hattr := C54_attribute (attributeIs_embed (h := hlabel) (q := q) (n := b!"ARTLABEL") rfl hx)
  unfold blkidDevice at hx2
  rw [hattr, Outcome.ok_bind] at hx2
  obtain ⟨a, _, hx2⟩ := Outcome.bind_eq_ok.mp hx2
  obtain ⟨b, _, hx2⟩ := Outcome.bind_eq_ok.mp hx2
  obtain ⟨c, _, hx2⟩ := Outcome.bind_eq_ok.mp hx2
  simp only [Outcome.pure_eq, Outcome.ok.injEq, Prod.mk.injEq] at hx2
  refine ⟨x2, by rw [hn]; simp, by rw [← hx2.1]⟩

/-! ## Examples -/

/-- A quoted attribute with a leading blank. -/
private def at' (n v : Bytes) : Bytes := [32] ++ n ++ [61, 34] ++ v ++ [34]

def sampleEntry1 : CacheEntry where
  text := b!"<device" ++ at' b!"DEVNO" b!"0x0801" ++ at' b!"UUID" b!"A1B2-C3D4" ++ at' b!"TYPE" b!"vfat" ++ at' b!"PARTLABEL" b!"EFI"
    ++ b!">/dev/sda1"
  partLabel := b!"EFI"
  uuid := b!"A1B2-C3D4"
  type := b!"vfat"

def sampleEntry2 : CacheEntry where
  text := [10] ++ b!"<device" ++ at' b!"DEVNO" b!"0x0802" ++ at' b!"UUID" b!"c4e8dc21-6ab4-4d8f-9f5a-0123456789ab"
    ++ at' b!"TYPE" b!"swap" ++ at' b!"PARTLABEL" b!"swap0" ++ b!">/dev/sda2"
  partLabel := b!"swap0"
  uuid := b!"c4e8dc21-6ab4-4d8f-9f5a-0123456789ab"
  type := b!"swap"

instance (l₁ l₂ : Bytes) : Decidable (l₁ <:+: l₂) :=
  decidable_of_iff (¬ findSub l₁ l₂ = none) (by rw [findSub_none_iff]; exact Decidable.not_not)

theorem sampleEntry1_wellFormed : sampleEntry1.WellFormed where
  closed := by decide +kernel
  partLabel := ⟨b!"<device" ++ at' b!"DEVNO" b!"0x0801" ++ at' b!"UUID" b!"A1B2-C3D4" ++ at' b!"TYPE" b!"vfat" ++ [32], b!">/dev/sda1",
    by decide +kernel, by decide, by decide +kernel⟩
  uuid := ⟨b!"<device" ++ at' b!"DEVNO" b!"0x0801" ++ [32], at' b!"TYPE" b!"vfat" ++ at' b!"PARTLABEL" b!"EFI" ++ b!">/dev/sda1",
    by decide +kernel, by decide, by decide +kernel⟩
  type := ⟨b!"<device" ++ at' b!"DEVNO" b!"0x0801" ++ at' b!"UUID" b!"A1B2-C3D4" ++ [32], at' b!"PARTLABEL" b!"EFI" ++ b!">/dev/sda1",
    by decide +kernel, by decide, by decide +kernel⟩
  noNul := by decide

theorem sampleEntry2_wellFormed : sampleEntry2.WellFormed where
  closed := by decide +kernel
  partLabel := ⟨[10] ++ b!"<device" ++ at' b!"DEVNO" b!"0x0802" ++ at' b!"UUID" b!"c4e8dc21-6ab4-4d8f-9f5a-0123456789ab"
      ++ at' b!"TYPE" b!"swap" ++ [32], b!">/dev/sda2", by decide +kernel, by decide, by decide +kernel⟩
  uuid := ⟨[10] ++ b!"<device" ++ at' b!"DEVNO" b!"0x0802" ++ [32], at' b!"TYPE" b!"swap" ++ at' b!"PARTLABEL" b!"swap0" ++ b!">/dev/sda2",
    by decide +kernel, by decide, by decide +kernel⟩
  type := ⟨[10] ++ b!"<device" ++ at' b!"DEVNO" b!"0x0802" ++ at' b!"UUID" b!"c4e8dc21-6ab4-4d8f-9f5a-0123456789ab" ++ [32],
    at' b!"PARTLABEL" b!"swap0" ++ b!">/dev/sda2", by decide +kernel, by decide, by decide +kernel⟩
  noNul := by decide

example : (parseBlkid (cacheText [sampleEntry1, sampleEntry2] [10]) [] []).bind (fun x => .ok (x.2.1.map fun d => (d.id, d.label, d.preferred)))
    = .ok [(0, b!"EFI", false), (1, b!"swap0", true)] := by decide +kernel

/-- Three entries, the second without label: it gets that of the third. -/
example : (parseBlkid (cacheText [sampleEntry1] (b!"<device" ++ at' b!"UUID" b!"AAAA-BBBB" ++ at' b!"TYPE" b!"ext4" ++ b!">/dev/sdb1</device><device"
      ++ at' b!"PARTLABEL" b!"data" ++ at' b!"UUID" b!"CCCC-DDDD" ++ at' b!"TYPE" b!"ext4" ++ b!">/dev/sdc1</device>")) [] []).bind
        (fun x => .ok (x.2.1.map fun d => (d.id, d.label))) = .ok [(0, b!"EFI"), (1, b!"data"), (2, b!"data")] := by decide +kernel

/-- The UUID of a partition is taken for that of the file system when it comes first; and a secondary type for the type. -/
example : AttributeIs (b!"<device" ++ at' b!"PARTUUID" b!"1111-22" ++ at' b!"UUID" b!"AAAA-BBBB" ++ b!">/dev/sdb1") b!"UUID" b!"1111-22"
    ∧ AttributeIs (b!"<device" ++ at' b!"SEC_TYPE" b!"msdos" ++ at' b!"TYPE" b!"vfat" ++ b!">/dev/sdb1") b!"TYPE" b!"msdos" :=
  ⟨⟨b!"<device PART", at' b!"UUID" b!"AAAA-BBBB" ++ b!">/dev/sdb1", by decide +kernel, by decide, by decide +kernel⟩,
   ⟨b!"<device SEC_", at' b!"TYPE" b!"vfat" ++ b!">/dev/sdb1", by decide +kernel, by decide, by decide +kernel⟩⟩

end Licensecc
