import Verif.Spec.Smbios
import Verif.Props.ExecEnv
/-!
# C62: the firmware table on Windows
-/
namespace Licensecc.Win
open Licensecc.Win.Spec

theorem takeStrings_string (t : Bytes) (h0 : 0 ∉ t) : ∀ (cur r : Bytes), t.reverse ++ cur ≠ [] →
    takeStrings (t ++ 0 :: r) cur = (do let l ← takeStrings r []; .ok ((t.reverse ++ cur).reverse :: l)) := by
  induction t with
  | nil =>
    intro cur r h
    rw [List.nil_append, takeStrings, if_pos rfl, if_neg (by simpa using h)]
    rfl
  | cons c t ih =>
    intro cur r _
    simp only [List.mem_cons, not_or] at h0
    rw [List.cons_append, takeStrings, if_neg (fun h => h0.1 h.symm), ih h0.2 _ _ (by simp)]
    simp

theorem takeStrings_area (l : List Bytes) (h : ∀ t ∈ l, t ≠ [] ∧ 0 ∉ t) (r : Bytes) :
    takeStrings (l.flatMap (· ++ [0]) ++ 0 :: r) [] = .ok l := by
  induction l with
  | nil => simp [takeStrings]
  | cons t l ih =>
    obtain ⟨h1, h2⟩ := h t (by simp)
    rw [List.flatMap_cons, List.append_assoc, List.append_assoc, List.singleton_append,
      takeStrings_string t h2 [] _ (by simpa using h1), ih (fun u hu => h u (by simp [hu]))]
    simp

theorem skipStrings_string (t : Bytes) (h0 : 0 ∉ t) : ∀ (i : Bool) (r : Bytes), (t ≠ [] ∨ i = true) →
    skipStrings (t ++ 0 :: r) i = skipStrings r false := by
  induction t with
  | nil =>
    intro i r h
    have : i = true := by simpa using h
    subst this
    rw [List.nil_append, skipStrings, if_pos rfl, if_pos rfl]
  | cons c t ih =>
    intro i r _
    simp only [List.mem_cons, not_or] at h0
    rw [List.cons_append, skipStrings, if_neg (fun h => h0.1 h.symm), ih h0.2 _ _ (.inr rfl)]

theorem skipStrings_area (l : List Bytes) (h : ∀ t ∈ l, t ≠ [] ∧ 0 ∉ t) (r : Bytes) :
    skipStrings (l.flatMap (· ++ [0]) ++ 0 :: r) false = .ok r := by
  induction l with
  | nil => simp [skipStrings]
  | cons t l ih =>
    obtain ⟨h1, h2⟩ := h t (by simp)
    rw [List.flatMap_cons, List.append_assoc, List.append_assoc, List.singleton_append,
      skipStrings_string t h2 _ _ (.inl h1), ih (fun u hu => h u (by simp [hu]))]

theorem encode_length (s : Structure) (hw : s.WellFormed) (r : Bytes) : headerLength (s.encode ++ r) = .ok s.size
    ∧ behind (s.encode ++ r) s.size = .ok (stringArea s.strings ++ r) := by
  have h2 := hw.2.1
  refine ⟨?_, ?_⟩
  · simp only [Structure.encode, List.cons_append, headerLength, Outcome.ok.injEq]
    simp; omega
  · unfold behind Structure.encode
    rw [if_pos (by simp [Structure.size])]
    simp [Structure.size]

theorem area_cases (l : List Bytes) (h : ∀ t ∈ l, t ≠ [] ∧ 0 ∉ t) : (l = [] ∧ stringArea l = [0, 0])
    ∨ ∃ c r, c ≠ 0 ∧ stringArea l = c :: r ∧ stringArea l = l.flatMap (· ++ [0]) ++ [0] := by
  cases l with
  | nil => exact .inl ⟨rfl, rfl⟩
  | cons t l =>
    right
    obtain ⟨h1, h2⟩ := h t (by simp)
    cases t with
    | nil => exact absurd rfl h1
    | cons c t =>
      simp only [List.mem_cons, not_or] at h2
      exact ⟨c, t ++ [0] ++ l.flatMap (· ++ [0]) ++ [0], fun h => h2.1 h.symm, by simp [stringArea], by simp [stringArea]⟩

theorem skip_encode (s : Structure) (hw : s.WellFormed) (r : Bytes) : skip (s.encode ++ r) = .ok r := by
  unfold skip
  obtain ⟨h1, h2⟩ := encode_length s hw r
  rw [h1]; simp only [Outcome.ok_bind]; rw [h2]; simp only [Outcome.ok_bind]
  rcases area_cases s.strings hw.2.2 with ⟨_, h⟩ | ⟨c, q, hc, h, h'⟩
  · rw [h]; simp [behind]
  · rw [h]
    simp only [List.cons_append]
    rw [if_neg hc, ← List.cons_append, ← h, h', List.append_assoc, List.singleton_append, skipStrings_area _ hw.2.2]

theorem extract_encode (s : Structure) (hw : s.WellFormed) (r : Bytes) : extractStrings (s.encode ++ r) = .ok s.strings := by
  unfold extractStrings
  obtain ⟨h1, h2⟩ := encode_length s hw r
  rw [h1]; simp only [Outcome.ok_bind]; rw [h2]; simp only [Outcome.ok_bind]
  rcases area_cases s.strings hw.2.2 with ⟨h0, h⟩ | ⟨c, q, hc, h, h'⟩
  · rw [h, h0]; simp
  · rw [h]
    simp only [List.cons_append]
    rw [if_neg hc, ← List.cons_append, ← h, h', List.append_assoc, List.singleton_append, takeStrings_area _ hw.2.2]

theorem encode_pos (s : Structure) : 1 ≤ s.encode.length := by
  unfold Structure.encode; simp

/-- The headers: where each structure begins. -/
def pointers : List Structure → List Bytes
  | [] => []
  | s :: ss => (s.encode ++ table ss) :: pointers ss

theorem table_cons (s : Structure) (ss : List Structure) : table (s :: ss) = s.encode ++ table ss := by simp [table]

theorem feedLoop_table (ss : List Structure) (hw : ∀ s ∈ ss, s.WellFormed) : ∀ fuel, (table ss).length ≤ fuel →
    feedLoop fuel (table ss) = .ok (pointers ss) := by
  induction ss with
  | nil => intro fuel _; cases fuel <;> simp [feedLoop, table, pointers]
  | cons s ss ih =>
    intro fuel hf
    have he := encode_pos s
    rw [table_cons] at hf ⊢
    simp only [List.length_append] at hf
    cases fuel with
    | zero => omega
    | succ fuel =>
      have hne : ¬ s.encode ++ table ss = [] := by
        intro h
        have := congrArg List.length h
        simp only [List.length_append, List.length_nil] at this
        omega
      rw [feedLoop, if_neg hne, skip_encode s (hw s (by simp))]
      simp only [Outcome.ok_bind]
      rw [ih (fun x hx => hw x (by simp [hx])) fuel (by omega)]
      rfl

/-- A structure is consumed, whatever the table: there is always enough fuel. -/
theorem skipStrings_shorter : ∀ (x : Bytes) (i : Bool) (y : Bytes), skipStrings x i = .ok y → y.length < x.length := by
  intro x
  induction x with
  | nil => intro i y h; simp [skipStrings] at h
  | cons c x ih =>
    intro i y h
    rw [skipStrings] at h
    split at h
    · split at h
      · have := ih _ _ h; simp; omega
      · simp only [Outcome.ok.injEq] at h; subst h; simp
    · have := ih _ _ h; simp; omega

theorem skip_shorter (x y : Bytes) (h : skip x = .ok y) : y.length < x.length := by
  unfold skip at h
  obtain ⟨n, _, h⟩ := Outcome.bind_eq_ok.mp h
  obtain ⟨p, h1, h⟩ := Outcome.bind_eq_ok.mp h
  have hp : p.length ≤ x.length := by
    unfold behind at h1
    split at h1
    · simp only [Outcome.ok.injEq] at h1; subst h1; simp
    · simp at h1
  cases p with
  | nil => simp at h
  | cons c p =>
    simp only at h
    split at h
    · unfold behind at h
      split at h
      · simp only [Outcome.ok.injEq] at h; subst h
        simp only [List.length_drop, List.length_cons] at hp ⊢; omega
      · simp at h
    · have := skipStrings_shorter _ _ _ h; omega

theorem feedLoop_enough : ∀ (fuel : Nat) (x : Bytes), x.length ≤ fuel → feedLoop (fuel + 1) x = feedLoop fuel x := by
  intro fuel
  induction fuel with
  | zero => intro x hx; have : x = [] := by simpa using hx
            subst this; simp [feedLoop]
  | succ fuel ih =>
    intro x hx
    rw [feedLoop, feedLoop]
    by_cases h : x = []
    · rw [if_pos h, if_pos h]
    · rw [if_neg h, if_neg h]
      cases hs : skip x with
      | ok y =>
        have := skip_shorter x y hs
        simp only [Outcome.ok_bind]
        rw [ih y (by omega)]
      | throw e => rfl
      | ub => rfl

/-! ## The fields -/

theorem byteAt (s : Structure) (off : Nat) (r : Bytes) (h2 : 2 ≤ off) (b : UInt8) (h : s.byte off = some b) :
    fieldAt (s.encode ++ r) off = .ok b := by
  unfold Structure.byte at h
  unfold fieldAt Structure.encode
  obtain ⟨k, rfl⟩ : ∃ k, off = k + 2 := ⟨off - 2, by omega⟩
  simp only [Nat.add_sub_cancel] at h
  have : (s.type :: UInt8.ofNat s.size :: s.body ++ stringArea s.strings ++ r)[k + 2]? = some b := by
    simp only [List.cons_append, List.getElem?_cons_succ, List.append_assoc]
    obtain ⟨h3, h4⟩ := List.getElem?_eq_some_iff.mp h
    rw [List.getElem?_append_left h3, h]
  rw [this]

theorem stringAt_string {s : Structure} {off : Nat} (hr : s.Refers off) {b : UInt8} (hb : s.byte off = some b)
    (hn : 0 < b.toNat ∧ b.toNat < s.size) : ∃ t, s.string off = some t ∧ stringAt s.strings b = .ok t := by
  have hnum : s.number off = some b.toNat := by unfold Structure.number; rw [hb]; exact if_pos hn
  have hl := hr _ hnum
  unfold Structure.string stringAt
  rw [hnum]
  have hget := List.getElem?_eq_getElem (by omega : b.toNat - 1 < s.strings.length)
  exact ⟨_, hget, by rw [hget]⟩

theorem string_none {s : Structure} {off : Nat} {b : UInt8} (hb : s.byte off = some b) (hn : ¬ (0 < b.toNat ∧ b.toNat < s.size)) :
    s.string off = none := by
  have hnum : s.number off = none := by unfold Structure.number; rw [hb]; exact if_neg hn
  unfold Structure.string; rw [hnum]

/-- What one structure changes. -/
def step (d : WinDmi) (s : Structure) : WinDmi where
  sysVendor := ((if s.type = 2 then s.string 4 else none).getD d.sysVendor)
  biosVendor := ((if s.type = 0 then s.string 4 else none).getD d.biosVendor)
  biosDescription := ((if s.type = 1 then s.product else none).getD d.biosDescription)
  cpuManufacturer := ((if s.type = 4 then s.string 7 else none).getD d.cpuManufacturer)
  cores := (if s.type = 4 then s.byte 35 else none).elim d.cores (·.toNat)

theorem readStructure_step (d : WinDmi) (s : Structure) (hs : s.Proper) (r : Bytes) :
    readStructure d (s.encode ++ r) = .ok (step d s) := by
  obtain ⟨hw, h0, h1, h2, h4⟩ := hs
  have hz : s.size ≠ 0 := by unfold Structure.size; omega
  have ht : fieldAt (s.encode ++ r) 0 = .ok s.type := rfl
  unfold readStructure
  rw [extract_encode s hw r, ht, (encode_length s hw r).1]
  simp only [Outcome.ok_bind, if_neg hz]
  by_cases t2 : s.type = 2
  · obtain ⟨b, hb⟩ := Option.isSome_iff_exists.mp (h2 t2).1
    rw [if_pos t2, byteAt s 4 r (by omega) b hb]
    simp only [Outcome.ok_bind]
    by_cases hn : 0 < b.toNat ∧ b.toNat < s.size
    · obtain ⟨t, e1, e2⟩ := stringAt_string (h2 t2).2 hb hn
      rw [if_pos hn, e2]
      simp [step, t2, e1]
    · rw [if_neg hn]; simp [step, t2, string_none hb hn]
  rw [if_neg t2]
  by_cases t0 : s.type = 0
  · obtain ⟨b, hb⟩ := Option.isSome_iff_exists.mp (h0 t0).1
    rw [if_pos t0, byteAt s 4 r (by omega) b hb]
    simp only [Outcome.ok_bind]
    by_cases hn : 0 < b.toNat ∧ b.toNat < s.size
    · obtain ⟨t, e1, e2⟩ := stringAt_string (h0 t0).2 hb hn
      rw [if_pos hn, e2]
      simp [step, t0, e1]
    · rw [if_neg hn]; simp [step, t0, string_none hb hn]
  rw [if_neg t0]
  by_cases t4 : s.type = 4
  · obtain ⟨b, hb⟩ := Option.isSome_iff_exists.mp (h4 t4).1
    obtain ⟨c, hc⟩ := Option.isSome_iff_exists.mp (h4 t4).2.1
    rw [if_pos t4, byteAt s 7 r (by omega) b hb, byteAt s 35 r (by omega) c hc]
    simp only [Outcome.ok_bind]
    by_cases hn : 0 < b.toNat ∧ b.toNat < s.size
    · obtain ⟨t, e1, e2⟩ := stringAt_string (h4 t4).2.2 hb hn
      rw [if_pos hn, e2]
      simp [step, t4, e1, hc]
    · rw [if_neg hn]; simp [step, t4, string_none hb hn, hc]
  rw [if_neg t4]
  by_cases t1 : s.type = 1
  · obtain ⟨g1, g2, g3, g4⟩ := h1 t1
    obtain ⟨b, hb⟩ := Option.isSome_iff_exists.mp g1
    obtain ⟨c, hc⟩ := Option.isSome_iff_exists.mp g2
    rw [if_pos t1, byteAt s 4 r (by omega) b hb, byteAt s 5 r (by omega) c hc]
    simp only [Outcome.ok_bind]
    by_cases hn : 0 < b.toNat ∧ b.toNat < s.size
    · obtain ⟨t, e1, e2⟩ := stringAt_string g3 hb hn
      rw [if_pos hn]
      by_cases hm : 0 < c.toNat ∧ c.toNat < s.size
      · obtain ⟨u, e3, e4⟩ := stringAt_string g4 hc hm
        rw [if_pos hm, e2, e4]
        simp [step, t1, Structure.product, e1, e3]
      · rw [if_neg hm]; simp [step, t1, Structure.product, e1, string_none hc hm]
    · rw [if_neg hn]; simp [step, t1, Structure.product, string_none hb hn]
  rw [if_neg t1]
  simp [step, t0, t1, t2, t4]

theorem readStructures_steps (ss : List Structure) (hs : ∀ s ∈ ss, s.Proper) : ∀ d,
    readStructures d (pointers ss) = .ok (ss.foldl step d) := by
  induction ss with
  | nil => intro d; rfl
  | cons s ss ih =>
    intro d
    rw [pointers, readStructures, readStructure_step d s (hs s (by simp))]
    simp only [Outcome.ok_bind]
    rw [ih (fun x hx => hs x (by simp [hx]))]
    rfl

theorem getLast_or {α : Type} (f : Structure → Option α) (g : WinDmi → α)
    (hg : ∀ d s, g (step d s) = (f s).getD (g d)) (ss : List Structure) : ∀ d,
    g (ss.foldl step d) = (ss.filterMap f).getLast?.getD (g d) := by
  induction ss with
  | nil => intro d; rfl
  | cons s ss ih =>
    intro d
    rw [List.foldl_cons, ih, hg]
    cases h : f s with
    | none => rw [List.filterMap_cons_none h]; rfl
    | some a =>
      rw [List.filterMap_cons_some h, List.getLast?_cons]
      cases (List.filterMap f ss).getLast? <;> rfl

/-- **C62**: from a proper firmware table everything is read right: the manufacturer of the last baseboard, the vendor of the last
    BIOS, manufacturer and product of the last system, manufacturer of the last processor (as far as they have one), and the
    cores of the last processor. -/
theorem C62_table_read {raw : Bytes} {ss : List Structure} (hf : Firmware raw ss) (hs : ∀ s ∈ ss, s.Proper) :
    ∃ d, winDmiInfo (some raw) = .ok d
      ∧ d.sysVendor = lastString ss 2 (·.string 4) ∧ d.biosVendor = lastString ss 0 (·.string 4)
      ∧ d.biosDescription = lastString ss 1 (·.product) ∧ d.cpuManufacturer = lastString ss 4 (·.string 7)
      ∧ d.cores = ((ss.filter (fun s => s.type = 4)).getLast?.bind (·.byte 35)).elim 0 (·.toNat) := by
  obtain ⟨v, a, b, c, e, w, hw, rfl, hl⟩ := hf
  match w, hw with
  | [w1, w2, w3], _ =>
    refine ⟨ss.foldl step emptyDmi, ?_, ?_, ?_, ?_, ?_, ?_⟩
    · simp only [winDmiInfo, List.cons_append, List.nil_append]
      rw [if_neg (by omega), ← hl, List.take_length]
      unfold feed
      rw [feedLoop_table ss (fun s h => (hs s h).1) _ (Nat.le_refl _)]
      simp only [Outcome.ok_bind]
      exact readStructures_steps ss hs _
    · exact getLast_or _ (·.sysVendor) (fun d s => rfl) ss _
    · exact getLast_or _ (·.biosVendor) (fun d s => rfl) ss _
    · exact getLast_or _ (·.biosDescription) (fun d s => rfl) ss _
    · exact getLast_or _ (·.cpuManufacturer) (fun d s => rfl) ss _
    · have key : ∀ (ss : List Structure) (d : WinDmi), (∀ s ∈ ss, s.Proper) → (ss.foldl step d).cores
          = ((ss.filter (fun s => s.type = 4)).getLast?.bind (·.byte 35)).elim d.cores (·.toNat) := by
        intro ss
        induction ss with
        | nil => intro d _; rfl
        | cons s ss ih =>
          intro d hs
          rw [List.foldl_cons, ih _ (fun x hx => hs x (by simp [hx])), List.filter_cons]
          by_cases t4 : s.type = 4
          · obtain ⟨c, hc⟩ := Option.isSome_iff_exists.mp ((hs s (by simp)).2.2.2.2 t4).2.1
            rw [if_pos (by simpa using t4), List.getLast?_cons]
            have hstep : (step d s).cores = c.toNat := by simp [step, t4, hc]
            rw [hstep]
            cases hg : (ss.filter (fun s => decide (s.type = 4))).getLast? with
            | none => simp [hc]
            | some x =>
              have hx : x ∈ ss.filter (fun s => decide (s.type = 4)) := List.mem_of_getLast? hg
              simp only [List.mem_filter, decide_eq_true_eq] at hx
              obtain ⟨c', hc'⟩ := Option.isSome_iff_exists.mp ((hs x (by simp [hx.1])).2.2.2.2 hx.2).2.1
              simp [hc']
          · rw [if_neg (by simpa using t4)]
            have hstep : (step d s).cores = d.cores := by simp [step, t4]
            rw [hstep]
      exact key ss emptyDmi hs

/-- **C62**: without a firmware table everything is empty. -/
theorem C62_no_table : ∃ d, winDmiInfo none = .ok d ∧ d.sysVendor = [] ∧ d.biosVendor = [] ∧ d.biosDescription = []
    ∧ d.cpuManufacturer = [] ∧ d.cores = 0 := ⟨_, rfl, rfl, rfl, rfl, rfl, rfl⟩

/-- **C62**: an answer of the system that is shorter than its header, or than the length in its header says, is read beyond its end. -/
theorem C62_short_answer {raw : Bytes} (h : raw.length < 8 ∨ ∃ w v a b c d rest, raw = w ++ [v, a, b, c, d] ++ rest ∧ w.length = 3
    ∧ rest.length < a.toNat + 256 * b.toNat + 65536 * c.toNat + 16777216 * d.toNat) : winDmiInfo (some raw) = .ub := by
  rcases h with h | ⟨w, v, a, b, c, d, rest, rfl, hw, hl⟩
  · unfold winDmiInfo
    split
    · rename_i hs; cases hs
    · rename_i hs
      cases hs
      simp only [List.length_cons] at h
      omega
    · rfl
  · match w, hw with
    | [x, y, z], _ =>
      simp only [winDmiInfo, List.cons_append, List.nil_append]
      rw [if_pos hl]

/-- **C62** (the property "any table can be read" fails): a system, BIOS or baseboard structure with a number that no string has,
    behind proper structures, is undefined behaviour - unless the number is not smaller than the length of the structure. -/
theorem C62_dangling_number {raw : Bytes} {before after : List Structure} {s : Structure}
    (hf : Firmware raw (before ++ s :: after)) (hb : ∀ x ∈ before, x.Proper) (hw : ∀ x ∈ s :: after, x.WellFormed)
    (ht : s.type = 0 ∨ s.type = 2) {n : Nat} (hn : s.number 4 = some n) (hd : s.strings.length < n) :
    winDmiInfo (some raw) = .ub := by
  obtain ⟨v, a, b, c, e, w, hw', rfl, hl⟩ := hf
  match w, hw' with
  | [w1, w2, w3], _ =>
    simp only [winDmiInfo, List.cons_append, List.nil_append]
    rw [if_neg (by omega), ← hl, List.take_length]
    unfold feed
    rw [feedLoop_table _ (fun x h => by
      rcases List.mem_append.mp h with h | h
      · exact (hb x h).1
      · exact hw x h) _ (Nat.le_refl _)]
    simp only [Outcome.ok_bind]
    have key : ∀ (l : List Structure) (d : WinDmi), (∀ x ∈ l, x.Proper) → readStructures d (pointers (l ++ s :: after)) = .ub := by
      intro l
      induction l with
      | nil =>
        intro d _
        obtain ⟨k, hk, hk'⟩ : ∃ k : UInt8, s.byte 4 = some k ∧ (0 < k.toNat ∧ k.toNat < s.size) ∧ k.toNat = n := by
          unfold Structure.number at hn
          cases hb : s.byte 4 with
          | none => rw [hb] at hn; simp at hn
          | some k =>
            rw [hb] at hn
            simp only at hn
            split at hn
            · rename_i hk; simp only [Option.some.injEq] at hn; exact ⟨k, rfl, hk, hn⟩
            · simp at hn
        have hws := hw s (by simp)
        have hz : s.size ≠ 0 := by unfold Structure.size; omega
        have hty : fieldAt (s.encode ++ table after) 0 = .ok s.type := rfl
        have hstr : stringAt s.strings k = .ub := by
          unfold stringAt
          rw [List.getElem?_eq_none (by omega)]
        rw [List.nil_append, pointers, readStructures]
        have : readStructure d (s.encode ++ table after) = .ub := by
          unfold readStructure
          rw [extract_encode s hws _, hty, (encode_length s hws _).1, byteAt s 4 _ (by omega) k hk]
          simp only [Outcome.ok_bind, if_neg hz, if_pos hk'.1, hstr]
          rcases ht with ht | ht
          · rw [if_neg (by rw [ht]; decide), if_pos ht]; rfl
          · rw [if_pos ht]; rfl
        rw [this]; rfl
      | cons x l ih =>
        intro d hp
        rw [List.cons_append, pointers, readStructures, readStructure_step d x (hp x (by simp))]
        simp only [Outcome.ok_bind]
        exact ih _ (fun y hy => hp y (by simp [hy]))
    exact key before emptyDmi hb

/-- **C62**: a table that is cut off behind a well-formed part is undefined behaviour as well: here inside the strings. -/
theorem C62_truncated_table {raw : Bytes} {ss : List Structure} (hs : ∀ s ∈ ss, s.WellFormed) {type : UInt8} {body rest : Bytes}
    (hb : 2 ≤ body.length ∧ body.length + 2 ≤ 255) (hr : rest.head? ≠ some 0 ∧ ∀ u v, rest ≠ u ++ [0, 0] ++ v)
    {v a b c d : UInt8} {w : Bytes} (hw : w.length = 3)
    (hraw : raw = v :: w ++ [a, b, c, d] ++ (table ss ++ type :: UInt8.ofNat (body.length + 2) :: body ++ rest))
    (hlen : (table ss ++ type :: UInt8.ofNat (body.length + 2) :: body ++ rest).length
      = a.toNat + 256 * b.toNat + 65536 * c.toNat + 16777216 * d.toNat) : winDmiInfo (some raw) = .ub := by
  subst hraw
  match w, hw with
  | [w1, w2, w3], _ =>
    simp only [winDmiInfo, List.cons_append, List.nil_append]
    rw [if_neg (by omega), ← hlen, List.take_length]
    have hskip : ∀ (r : Bytes) (i : Bool), (i = false → r.head? ≠ some 0) → (∀ u v, r ≠ u ++ [0, 0] ++ v) → skipStrings r i = .ub := by
      intro r
      induction r with
      | nil => intro i _ _; rfl
      | cons x r ih =>
        intro i h1 h2
        rw [skipStrings]
        have h2' : ∀ u v, r ≠ u ++ [0, 0] ++ v := fun u v h => h2 (x :: u) v (by rw [h]; rfl)
        by_cases hx : x = 0
        · subst hx
          rw [if_pos rfl]
          cases i with
          | false => simp at h1
          | true =>
            rw [if_pos rfl]
            refine ih _ (fun _ h => ?_) h2'
            cases r with
            | nil => simp at h
            | cons y r => simp only [List.head?_cons, Option.some.injEq] at h; subst h; exact h2 [] r rfl
        · rw [if_neg hx]
          exact ih true (by simp) h2'
    have hlast : skip (type :: UInt8.ofNat (body.length + 2) :: body ++ rest) = .ub := by
      unfold skip
      have e1 : headerLength (type :: UInt8.ofNat (body.length + 2) :: body ++ rest) = .ok (body.length + 2) := by
        simp only [List.cons_append, headerLength, Outcome.ok.injEq]
        simp; omega
      have e2 : behind (type :: UInt8.ofNat (body.length + 2) :: body ++ rest) (body.length + 2) = .ok rest := by
        unfold behind
        rw [if_pos (by simp)]
        simp
      rw [e1]; simp only [Outcome.ok_bind]; rw [e2]; simp only [Outcome.ok_bind]
      cases rest with
      | nil => rfl
      | cons x r =>
        have hx : x ≠ 0 := by have := hr.1; simpa using this
        simp only
        rw [if_neg hx]
        exact hskip _ _ (fun _ => hr.1) hr.2
    have key : ∀ (l : List Structure), (∀ s ∈ l, s.WellFormed) → ∀ fuel,
        (table l ++ type :: UInt8.ofNat (body.length + 2) :: body ++ rest).length ≤ fuel →
        feedLoop fuel (table l ++ type :: UInt8.ofNat (body.length + 2) :: body ++ rest) = .ub := by
      intro l
      induction l with
      | nil =>
        intro _ fuel hfuel
        cases fuel with
        | zero => simp at hfuel
        | succ fuel =>
          have : table [] ++ type :: UInt8.ofNat (body.length + 2) :: body ++ rest
              = type :: UInt8.ofNat (body.length + 2) :: body ++ rest := by simp [table]
          rw [this, feedLoop, if_neg (by simp), hlast]; rfl
      | cons s l ih =>
        intro hl fuel hfuel
        have he := encode_pos s
        have : table (s :: l) ++ type :: UInt8.ofNat (body.length + 2) :: body ++ rest
            = s.encode ++ (table l ++ type :: UInt8.ofNat (body.length + 2) :: body ++ rest) := by
          rw [table_cons]; simp only [List.append_assoc, List.cons_append]
        rw [this] at hfuel ⊢
        rw [List.length_append] at hfuel
        cases fuel with
        | zero => omega
        | succ fuel =>
          rw [feedLoop, if_neg (by
            intro h
            have := congrArg List.length h
            simp only [List.length_append, List.length_nil] at this
            omega), skip_encode s (hl s (by simp))]
          simp only [Outcome.ok_bind]
          rw [ih (fun x hx => hl x (by simp [hx])) fuel (by omega)]
          rfl
    unfold feed
    rw [key ss hs _ (Nat.le_refl _)]
    rfl

/-! ## The environment -/

/-- **C62**: on Windows no container is ever reported. -/
theorem C62_never_container (h : WinHost) {e : ExecSummary} (he : h.execSummary = .ok e) :
    e.virtualization ≠ .container ∧ e.isDocker = false := by
  unfold WinHost.execSummary WinHost.mkEnv at he
  obtain ⟨x, h1, h2⟩ := Outcome.bind_eq_ok.mp he
  obtain ⟨d, _, h3⟩ := Outcome.bind_eq_ok.mp h1
  simp only [Outcome.ok.injEq] at h2 h3
  subst h2; subst h3
  refine ⟨?_, rfl⟩
  simp only [virtualization]
  rw [if_neg (by simp)]
  split <;> simp

/-- **C62**: the texts in the table are compared as they are: if none of the three contains one of the words in upper case, the
    CPU does not tell and the hypervisor bit is clear, the machine counts as bare metal. -/
theorem C62_bare_metal {h : WinHost} (ho : h.common.Ordered) {raw : Bytes} {ss : List Structure} (hraw : h.raw = some raw)
    (hf : Firmware raw ss) (hs : ∀ s ∈ ss, s.Proper) (hbit : h.hypervisor = false)
    (hcpu : ∀ p ∈ Licensecc.Spec.cpuWords, ¬ Licensecc.Spec.Mentions h.cpuVendor p.1 ∧ ¬ Licensecc.Spec.Mentions h.cpuBrand p.1)
    (hdmi : ∀ t ∈ [lastString ss 1 (·.product), lastString ss 0 (·.string 4), lastString ss 2 (·.string 4)],
      (∀ p ∈ Licensecc.Spec.vmWords, ¬ Licensecc.Spec.Mentions t p.1)
      ∧ ∀ w ∈ [b!"SEABIOS", b!"ALIBABA", b!"GOOGLE", b!"AWS", b!"AMAZON"], ¬ Licensecc.Spec.Mentions t w) :
    h.execSummary = .ok ⟨.none, false, false⟩ := by
  obtain ⟨d, h1, h2, h3, h4, _, _⟩ := C62_table_read hf hs
  simp only [List.mem_cons, List.not_mem_nil, or_false, forall_eq_or_imp, forall_eq, ← h2, ← h3, ← h4] at hdmi
  obtain ⟨⟨a1, a2⟩, ⟨b1, b2⟩, ⟨c1, c2⟩⟩ := hdmi
  have hfind : ∀ (m l : List (Bytes × VirtDetail)) (t : Bytes), m.Perm l → (∀ p ∈ l, ¬ Licensecc.Spec.Mentions t p.1) →
      findInMap m t = .bareToMetal := by
    intro m l t hm hno
    unfold findInMap
    have : m.find? (fun p => contains p.1 t) = none := by
      rw [List.find?_eq_none]
      intro p hp hc
      exact hno p (hm.mem_iff.mp hp) ((contains_iff _ _).mp hc)
    rw [this]
  have hno : ∀ w t, ¬ Licensecc.Spec.Mentions t w → contains w t = false := by
    intro w t h
    rw [← Bool.not_eq_true, contains_iff]; exact h
  have hgce : contains (b!"GOOGLECOMPUTEENGINE") d.biosDescription = false := by
    refine hno _ _ ?_
    rintro ⟨x, y, hxy⟩
    exact a2.2.2.1 ⟨x, b!"COMPUTEENGINE" ++ y, by rw [hxy]; simp⟩
  unfold WinHost.execSummary WinHost.mkEnv
  rw [hraw, h1]
  simp only [Outcome.ok_bind]
  have hcloud : isCloud ⟨⟨d.biosVendor, d.biosDescription, d.sysVendor⟩, h.cpuVendor, h.cpuBrand, .none⟩ = false := by
    unfold isCloud cloudProvider
    simp only [hno _ _ b2.1, hno _ _ a2.2.1, hno _ _ c2.2.1, hno _ _ c2.2.2.1, hgce, hno _ _ b2.2.2.2.1, hno _ _ a2.2.2.2.2,
      hno _ _ c2.2.2.2.1, Bool.or_false, Bool.false_eq_true, if_false]
    split
    · split <;> rfl
    · rfl
  have hdetail : virtualizationDetail h.common ⟨⟨d.biosVendor, d.biosDescription, d.sysVendor⟩, h.cpuVendor, h.cpuBrand, .none⟩
      = .bareToMetal := by
    unfold virtualizationDetail
    have e1 := hfind _ _ d.biosDescription ho.1 a1
    have e2 := hfind _ _ d.biosVendor ho.1 b1
    have e3 := hfind _ _ d.sysVendor ho.1 c1
    have e4 := hfind _ _ h.cpuVendor ho.2 (fun p hp => (hcpu p hp).1)
    have e5 := hfind _ _ h.cpuBrand ho.2 (fun p hp => (hcpu p hp).2)
    simp only [e1, e2, e3, e4, e5, if_true, hcloud]
    have : h.common.hypervisor = false := hbit
    rw [this]; rfl
  unfold virtualization
  rw [hdetail, hcloud]
  rfl

/-! ### Concrete cases -/

/-- A table with a BIOS, a system, a baseboard, a processor and the end mark. -/
def sampleStructures : List Structure :=
  [⟨0, [0, 0, 1, 2], [b!"Phoenix", b!"6.00"]⟩, ⟨1, [1, 0, 1, 2, 0, 0], [b!"VMware, Inc.", b!"VMware Virtual Platform"]⟩,
   ⟨2, [2, 0, 1, 0, 0, 0], [b!"Intel Corporation"]⟩,
   ⟨4, [4, 0, 1, 3, 2, 2, 0, 0, 0, 0, 0, 0, 0, 0, 0, 0, 0, 0, 0, 0, 0, 0, 0, 0, 0, 0, 0, 0, 0, 0, 0, 0, 0, 8, 8, 8],
    [b!"CPU 0", b!"GenuineIntel"]⟩, ⟨127, [127, 0], []⟩]

def sampleRaw : Bytes := [0, 2, 4, 0] ++ [(UInt8.ofNat (table sampleStructures).length), 0, 0, 0] ++ table sampleStructures

theorem sampleStructures_proper : ∀ s ∈ sampleStructures, s.Proper := by
  intro s hs
  simp only [sampleStructures, List.mem_cons, List.not_mem_nil, or_false] at hs
  rcases hs with rfl | rfl | rfl | rfl | rfl
  all_goals
    refine ⟨⟨by decide, by decide, by simp⟩, ?_, ?_, ?_, ?_⟩
  all_goals first
    | (intro h; exact absurd h (by decide))
    | skip
  · intro _; exact ⟨by decide, by intro n hn; have : n = 1 := by simpa [Structure.number, Structure.byte, Structure.size] using hn.symm
                                  subst this; decide⟩
  · intro _
    refine ⟨by decide, by decide, ?_, ?_⟩
    · intro n hn; have : n = 1 := by simpa [Structure.number, Structure.byte, Structure.size] using hn.symm
      subst this; decide
    · intro n hn; have : n = 2 := by simpa [Structure.number, Structure.byte, Structure.size] using hn.symm
      subst this; decide
  · intro _; exact ⟨by decide, by intro n hn; have : n = 1 := by simpa [Structure.number, Structure.byte, Structure.size] using hn.symm
                                  subst this; decide⟩
  · intro _
    refine ⟨by decide, by decide, ?_⟩
    intro n hn; have : n = 2 := by simpa [Structure.number, Structure.byte, Structure.size] using hn.symm
    subst this; decide

theorem sampleRaw_firmware : Firmware sampleRaw sampleStructures :=
  ⟨0, _, 0, 0, 0, [2, 4, 0], rfl, rfl, by decide +kernel⟩

example : winDmiInfo (some sampleRaw)
    = .ok ⟨b!"Intel Corporation", b!"Phoenix", b!"VMware, Inc.VMware Virtual Platform", b!"GenuineIntel", 8⟩ := by decide +kernel

/-- VMware is not recognised by its name, because the name is not in upper case; Linux would recognise it. -/
example : (⟨some sampleRaw, b!"GenuineIntel", b!"Intel(R) Xeon(R)", false, vmVendors, virtualCpuNames⟩ : WinHost).execSummary
    = .ok ⟨.none, false, false⟩ := by decide +kernel

/-- A BIOS structure of six bytes whose vendor is string 3 of one; number 9 would be ignored. -/
example : winDmiInfo (some ([0, 2, 4, 0, 9, 0, 0, 0] ++ table [⟨0, [0, 0, 3, 0], [b!"A"]⟩])) = .ub
    ∧ winDmiInfo (some ([0, 2, 4, 0, 9, 0, 0, 0] ++ table [⟨0, [0, 0, 9, 0], [b!"A"]⟩])) = .ok emptyDmi
    ∧ (⟨0, [0, 0, 3, 0], [b!"A"]⟩ : Structure).number 4 = some 3 := by decide +kernel

/-- A table that ends inside the strings. -/
example : winDmiInfo (some [0, 2, 4, 0, 8, 0, 0, 0, 0, 6, 0, 0, 1, 0, 65, 0]) = .ub := by decide +kernel

end Licensecc.Win
