import Verif.Spec.WinNetwork
import Verif.Props.ExecEnv
import Verif.Props.HwIdentifier
import Verif.Lemmas.Base64
/-!
# C61: the network adapters on Windows
-/
namespace Licensecc.Win
open Licensecc.Spec Licensecc.Win.Spec

/-! ## Addresses -/

/-- The value of digits after `v`, modulo 256. -/
def value (v : UInt8) : Bytes → UInt8
  | [] => v
  | c :: s => value (v * 10 + (c - 48)) s

theorem decimal_byte (a : UInt8) : (decimal a.toNat).all isDigit = true ∧ value 0 (decimal a.toNat) = a :=
  forall_uint8 (P := fun a => (decimal a.toNat).all isDigit = true ∧ value 0 (decimal a.toNat) = a) (by decide +kernel) a

theorem translate_digits (ds : Bytes) (hd : ds.all isDigit = true) : ∀ (s : Bytes) (i : Nat) (ip : Bytes), i < ip.length →
    translate (ds ++ s) i ip = translate s i (ip.set i (value (ip.getD i 0) ds)) := by
  induction ds with
  | nil =>
    intro s i ip hi
    simp only [List.nil_append, value]
    congr 1
    rw [List.getD_eq_getElem?_getD, List.getElem?_eq_getElem hi]
    simp
  | cons c ds ih =>
    intro s i ip hi
    simp only [List.all_cons, Bool.and_eq_true] at hd
    rw [List.cons_append, translate, if_pos hd.1, if_pos hi, ih hd.2 _ _ _ (by simpa using hi)]
    congr 1
    rw [value]
    simp [List.getD_eq_getElem?_getD, List.getElem?_set_self hi]

theorem translate_dot (s : Bytes) (i : Nat) (ip : Bytes) : translate (b!"." ++ s) i ip = translate s (i + 1) ip := by
  rw [show b!"." ++ s = 46 :: s from rfl, translate, if_neg (by decide)]

/-- **C61**: a dotted IPv4 address is read right. -/
theorem C61_address_read (a : Ipv4) : ∃ ip, translate (dotted a) 0 [0, 0, 0, 0] = .ok ip ∧ toIpv4 ip = a := by
  obtain ⟨a0, a1, a2, a3⟩ := a
  unfold dotted
  simp only [List.append_assoc]
  rw [translate_digits _ (decimal_byte a0).1 _ _ _ (by simp), translate_dot,
    translate_digits _ (decimal_byte a1).1 _ _ _ (by simp), translate_dot,
    translate_digits _ (decimal_byte a2).1 _ _ _ (by simp), translate_dot]
  have h3 := translate_digits _ (decimal_byte a3).1 [] 3
  simp only [List.append_nil] at h3
  rw [h3 _ (by simp)]
  refine ⟨_, rfl, ?_⟩
  simp [toIpv4, (decimal_byte a0).2, (decimal_byte a1).2, (decimal_byte a2).2, (decimal_byte a3).2]

theorem translate_ub (s : Bytes) : ∀ (i : Nat) (ip : Bytes), translate s i ip = .ub ↔
    ∃ pre c post, s = pre ++ c :: post ∧ isDigit c = true ∧ ip.length ≤ i + (pre.filter (fun x => !isDigit x)).length := by
  induction s with
  | nil =>
    intro i ip
    simp [translate]
  | cons c s ih =>
    intro i ip
    rw [translate]
    cases hc : isDigit c with
    | true =>
      simp only [if_true]
      by_cases hi : i < ip.length
      · rw [if_pos hi, ih]
        simp only [List.length_set]
        constructor
        · rintro ⟨pre, x, post, rfl, h1, h2⟩
          exact ⟨c :: pre, x, post, rfl, h1, by simpa [hc] using h2⟩
        · rintro ⟨pre, x, post, h, h1, h2⟩
          cases pre with
          | nil => simp only [List.filter_nil, List.length_nil] at h2; omega
          | cons y pre =>
            simp only [List.cons_append, List.cons.injEq] at h
            obtain ⟨rfl, rfl⟩ := h
            exact ⟨pre, x, post, rfl, h1, by simpa [hc] using h2⟩
      · rw [if_neg hi]
        simp only [true_iff]
        exact ⟨[], c, s, rfl, hc, by simp; omega⟩
    | false =>
      simp only [Bool.false_eq_true, if_false]
      rw [ih]
      constructor
      · rintro ⟨pre, x, post, rfl, h1, h2⟩
        exact ⟨c :: pre, x, post, rfl, h1, by simp [hc]; omega⟩
      · rintro ⟨pre, x, post, h, h1, h2⟩
        cases pre with
        | nil =>
          simp only [List.nil_append, List.cons.injEq] at h
          rw [h.1, h1] at hc; simp at hc
        | cons y pre =>
          simp only [List.cons_append, List.cons.injEq] at h
          obtain ⟨rfl, rfl⟩ := h
          refine ⟨pre, x, post, rfl, h1, ?_⟩
          simp [hc] at h2; omega

/-- **C61**: exactly the texts with a digit after four other characters make it write outside the address. -/
theorem C61_address_overrun_iff (s : Bytes) : translate s 0 [0, 0, 0, 0] = .ub ↔
    ∃ pre c post, s = pre ++ c :: post ∧ (48 ≤ c.toNat ∧ c.toNat ≤ 57)
      ∧ 4 ≤ (pre.filter (fun x => decide (x.toNat < 48 ∨ 57 < x.toNat))).length := by
  have hd : ∀ c : UInt8, (isDigit c = true ↔ 48 ≤ c.toNat ∧ c.toNat ≤ 57)
      ∧ (!isDigit c) = decide (c.toNat < 48 ∨ 57 < c.toNat) :=
    forall_uint8 (P := fun c => (isDigit c = true ↔ 48 ≤ c.toNat ∧ c.toNat ≤ 57)
      ∧ (!isDigit c) = decide (c.toNat < 48 ∨ 57 < c.toNat)) (by decide +kernel)
  rw [translate_ub]
  simp only [(hd _).1, (funext fun c => (hd c).2 : (fun x => !isDigit x) = fun x => decide (x.toNat < 48 ∨ 57 < x.toNat))]
  simp

/-! ## The list -/

theorem usable_iff (a : IpAdapter) : Usable a ↔ a.ethernet = true ∧ (macBytes a).all (· == 0) = false := by
  unfold Usable macBytes
  refine and_congr_right fun _ => ?_
  rw [← Bool.not_eq_true, List.all_eq_true]
  simp

theorem hasMac_iff (a : IpAdapter) (m : Mac) : HasMac a m ↔ m = toMac (macBytes a) := by
  unfold HasMac macBytes toMac
  have hl : (a.address.take (min 6 a.addressLength)).length ≤ 6 := by rw [List.length_take]; omega
  generalize a.address.take (min 6 a.addressLength) = b at hl
  obtain ⟨m0, m1, m2, m3, m4, m5⟩ := m
  match b, hl with
  | [], _ => simp
  | [_], _ => simp
  | [_, _], _ => simp
  | [_, _, _], _ => simp
  | [_, _, _, _], _ => simp
  | [_, _, _, _, _], _ => simp
  | [_, _, _, _, _, _], _ => simp
  | _ :: _ :: _ :: _ :: _ :: _ :: _ :: _, h => simp at h

theorem decimal_inj (a b : UInt8) (h : decimal a.toNat = decimal b.toNat) : a = b := by
  rw [← (decimal_byte a).2, ← (decimal_byte b).2, h]

theorem dotted_inj {a b : Ipv4} (h : dotted a = dotted b) : a = b := by
  obtain ⟨x, h1, h2⟩ := C61_address_read a
  obtain ⟨y, h3, h4⟩ := C61_address_read b
  rw [h, h3] at h1
  injection h1 with h1
  rw [← h2, ← h4, h1]

theorem entry_ok (a : IpAdapter) (hp : ∃ ip, a.ip = dotted ip) : ∃ x, adapterOfEntry a = .ok x
    ∧ x.length = (if Usable a then 1 else 0) ∧ ∀ d y, (d, y) ∈ x ↔ Usable a ∧ d = a.description.take 128 ∧ HasMac a y.mac ∧ a.ip = dotted y.ip := by
  obtain ⟨ip, hip⟩ := hp
  obtain ⟨t, h1, h2⟩ := C61_address_read ip
  unfold adapterOfEntry
  by_cases hu : Usable a
  · obtain ⟨u1, u2⟩ := (usable_iff a).mp hu
    have u3 : a.addressLength ≠ 0 := by
      intro h0; unfold macBytes at u2; rw [h0] at u2; simp at u2
    rw [u1, u2, hip, h1, if_neg (by simp), if_neg u3, if_neg (by simp)]
    refine ⟨_, rfl, by rw [if_pos hu]; rfl, fun d y => ?_⟩
    simp only [List.mem_singleton, Prod.mk.injEq, hu, true_and, h2]
    refine and_congr_right fun _ => ?_
    rw [hasMac_iff]
    constructor
    · rintro rfl; exact ⟨rfl, rfl⟩
    · rintro ⟨e1, e2⟩
      have := dotted_inj e2
      obtain ⟨y1, y2⟩ := y
      simp only at e1 this
      rw [e1, this]
  · refine ⟨[], ?_, by rw [if_neg hu]; rfl, fun d y => by simp [hu]⟩
    split
    · rfl
    · split
      · rfl
      · split
        · rfl
        · rename_i e1 e2 e3
          exact absurd ((usable_iff a).mpr ⟨by simpa using e1, by simpa using e3⟩) hu

theorem list_ok (l : List IpAdapter) (hp : Proper l) : ∃ t, adaptersOfList l = .ok t
    ∧ t.length = (l.filter (fun a => decide (Usable a))).length ∧ ∀ d y, (d, y) ∈ t ↔ Shows l d y := by
  induction l with
  | nil => exact ⟨[], rfl, rfl, fun d y => by simp [Shows]⟩
  | cons a l ih =>
    obtain ⟨x, h1, hx, h2⟩ := entry_ok a (hp a (by simp))
    obtain ⟨t, h3, ht, h4⟩ := ih (fun b hb => hp b (by simp [hb]))
    refine ⟨x ++ t, by simp [adaptersOfList, h1, h3], ?_, fun d y => ?_⟩
    · rw [List.length_append, hx, ht, List.filter_cons]
      by_cases hu : Usable a <;> simp [hu]; omega
    rw [List.mem_append, h2, h4]
    simp [Shows]

theorem delivered {n : Net} {l : List IpAdapter} (h : Delivers n l) : n.getAdapterInfosNamed = n.collect l := by
  unfold Net.getAdapterInfosNamed
  cases h with
  | first h1 h2 => rw [h1, h2]; rfl
  | second h1 h2 h3 h4 => rw [h1, h2, h3, h4]; rfl

/-- **C61**: what is reported are exactly the ethernet adapters with a hardware address other than zero, each with its first
    IPv4 address; if there are none, "not available". -/
theorem C61_adapters {n : Net} (hs : n.Sorts) {l : List IpAdapter} (hd : Delivers n l) (hp : Proper l) :
    ((∃ a ∈ l, Usable a) → ∃ r, n.getAdapterInfosNamed = .ok (.ok, r)
        ∧ r.length = (l.filter (fun a => decide (Usable a))).length ∧ ∀ d y, (d, y) ∈ r ↔ Shows l d y)
    ∧ ((∀ a ∈ l, ¬ Usable a) → n.getAdapterInfosNamed = .ok (.notAvail, [])) := by
  rw [delivered hd]
  obtain ⟨t, h1, ht, h2⟩ := list_ok l hp
  unfold Net.collect
  rw [h1]
  simp only [Outcome.ok_bind]
  constructor
  · rintro ⟨a, ha, hu⟩
    obtain ⟨ip, hip⟩ := hp a ha
    have hm : (a.description.take 128, (⟨toMac (macBytes a), ip⟩ : Adapter)) ∈ t :=
      (h2 _ _).mpr ⟨a, ha, hu, rfl, (hasMac_iff _ _).mpr rfl, hip⟩
    rw [if_neg (by intro h0; rw [List.length_eq_zero_iff] at h0; rw [h0] at hm; simp at hm)]
    refine ⟨_, rfl, by rw [(hs t).1.length_eq, ht], fun d y => ?_⟩
    rw [(hs t).1.mem_iff, h2]
  · intro hno
    have : t = [] := by
      cases t with
      | nil => rfl
      | cons x t =>
        obtain ⟨a, ha, hu, _⟩ := (h2 x.1 x.2).mp (by simp)
        exact absurd hu (hno a ha)
    subst this
    rfl

/-! ## The order -/

/-- Small letters only. -/
def Small (w : Bytes) : Prop := ∀ c ∈ w, c ∈ letters.map Prod.snd

instance (w : Bytes) : Decidable (Small w) := by unfold Small; infer_instance

theorem toLower_nat : ∀ n < 256, ∀ c ∈ letters.map Prod.snd,
    (toLower (UInt8.ofNat n) = c ↔ UInt8.ofNat n = c ∨ (UInt8.ofNat n, c) ∈ letters) := by decide +kernel

theorem toLower_eq_iff {x c : UInt8} (hc : c ∈ letters.map Prod.snd) : toLower x = c ↔ x = c ∨ (x, c) ∈ letters := by
  have := toLower_nat x.toNat (UInt8.toNat_lt x) c hc
  simpa using this

theorem spells_iff : ∀ {w s : Bytes}, Small w → (Spells s w ↔ s.map toLower = w) := by
  intro w
  induction w with
  | nil =>
    intro s _
    constructor
    · intro h; cases h; rfl
    · intro h
      rw [List.map_eq_nil_iff] at h
      subst h
      exact .nil
  | cons c w ih =>
    intro s hw
    have hc : c ∈ letters.map Prod.snd := hw c (by simp)
    have hw' : Small w := fun x hx => hw x (by simp [hx])
    constructor
    · intro h
      cases h with
      | same _ h => rw [List.map_cons, (ih hw').mp h, (toLower_eq_iff hc).mpr (.inl rfl)]
      | capital hx h => rw [List.map_cons, (ih hw').mp h, (toLower_eq_iff hc).mpr (.inr hx)]
    · intro h
      cases s with
      | nil => simp at h
      | cons x s =>
        rw [List.map_cons, List.cons.injEq] at h
        rcases (toLower_eq_iff hc).mp h.1 with rfl | hx
        · exact .same _ ((ih hw').mpr h.2)
        · exact .capital hx ((ih hw').mpr h.2)

theorem says_iff (d w : Bytes) (hw : Small w) : Says d w ↔ contains w (d.map toLower) = true := by
  rw [contains_iff]
  unfold Says Mentions
  simp only [spells_iff hw]
  constructor
  · rintro ⟨s, ⟨a, b, rfl⟩, rfl⟩
    exact ⟨a.map toLower, b.map toLower, by simp⟩
  · rintro ⟨a, b, h⟩
    rw [List.map_eq_append_iff] at h
    obtain ⟨x, y, rfl, h, rfl⟩ := h
    rw [List.map_eq_append_iff] at h
    obtain ⟨u, v, rfl, rfl, rfl⟩ := h
    exact ⟨v, ⟨u, y, by simp⟩, rfl⟩

theorem small_words : ∀ w ∈ realWords ++ virtualWords, Small w := by decide +kernel

/-- **C61**: a description that names a real card and nothing virtual scores higher than one that names something virtual and no
    real card. -/
theorem C61_real_scores_higher {d d' : Bytes} (h1 : SaysReal d) (h2 : ¬ SaysVirtual d) (h3 : SaysVirtual d') (h4 : ¬ SaysReal d') :
    score d' < score d := by
  unfold SaysReal SaysVirtual at *
  simp only [says_iff _ (b!"realtek") (small_words _ (by decide)), says_iff _ (b!"intel") (small_words _ (by decide)),
    says_iff _ (b!"wireless") (small_words _ (by decide)), says_iff _ (b!"virtual") (small_words _ (by decide)),
    says_iff _ (b!"ppp") (small_words _ (by decide)), says_iff _ (b!"tunnel") (small_words _ (by decide)),
    says_iff _ (b!"vpn") (small_words _ (by decide)), not_or, Bool.not_eq_true] at *
  unfold score bads goods
  simp only [List.map_cons, List.map_nil, List.sum_cons, List.sum_nil, h2.1, h2.2.1, h2.2.2.1, h2.2.2.2, h4.1, h4.2.1, h4.2.2]
  generalize contains (b!"realtek") (d.map toLower) = r1 at *
  generalize contains (b!"intel") (d.map toLower) = r2 at *
  generalize contains (b!"wireless") (d.map toLower) = r3 at *
  generalize contains (b!"virtual") (d'.map toLower) = v1 at *
  generalize contains (b!"ppp") (d'.map toLower) = v2 at *
  generalize contains (b!"tunnel") (d'.map toLower) = v3 at *
  generalize contains (b!"vpn") (d'.map toLower) = v4 at *
  have e1 : ∀ z : Bytes, 0 ≤ (if z = [] then (0 : Int) else 1) ∧ (if z = [] then (0 : Int) else 1) ≤ 1 := by
    intro z; split <;> decide
  have e2 := e1 d
  have e3 := e1 d'
  generalize (if d = [] then (0 : Int) else 1) = x at *
  generalize (if d' = [] then (0 : Int) else 1) = y at *
  clear h2 h4 e1
  cases r1 <;> cases r2 <;> cases r3 <;> cases v1 <;> cases v2 <;> cases v3 <;> cases v4 <;>
    simp only [Bool.false_eq_true, if_false, if_true, or_self, or_true, true_or] at * <;> omega

/-- **C61**: in the result no such virtual adapter precedes such a real one: a computer with a real card is identified by it. -/
theorem C61_real_first {n : Net} (hs : n.Sorts) {l : List IpAdapter} (hd : Delivers n l) {r : List (Bytes × Adapter)}
    (h : n.getAdapterInfosNamed = .ok (.ok, r)) {before after : List (Bytes × Adapter)} {x : Bytes × Adapter}
    (hr : r = before ++ x :: after) (hx : SaysReal x.1 ∧ ¬ SaysVirtual x.1) :
    ∀ y ∈ before, ¬ (SaysVirtual y.1 ∧ ¬ SaysReal y.1) := by
  intro y hy hv
  rw [delivered hd] at h
  unfold Net.collect at h
  obtain ⟨t, _, h⟩ := Outcome.bind_eq_ok.mp h
  simp only [Outcome.ok.injEq] at h
  split at h
  · simp at h
  · simp only [Prod.mk.injEq, true_and] at h
    have hp := (hs t).2
    rw [h, hr, List.pairwise_append] at hp
    exact hp.2.2 y hy x (by simp) (C61_real_scores_higher hx.1 hx.2 hv.1 hv.2)

theorem sublist_filter {α : Type} [DecidableEq α] {p : α → Bool} : ∀ {l s : List α}, l.Nodup → s.Sublist l →
    (∀ w ∈ l, w ∈ s ↔ p w = true) → s = l.filter p := by
  intro l
  induction l with
  | nil => intro s _ h _; simpa using h
  | cons a l ih =>
    intro s hn hs hm
    rw [List.nodup_cons] at hn
    rw [List.filter_cons]
    cases hs with
    | cons _ hs =>
      have : p a = false := by
        rw [← Bool.not_eq_true, ← hm a (by simp)]
        exact fun h => hn.1 (hs.subset h)
      rw [if_neg (by simp [this])]
      exact ih hn.2 hs (fun w hw => hm w (by simp [hw]))
    | cons_cons _ hs =>
      rename_i s'
      rw [if_pos ((hm a (by simp)).mp (by simp))]
      congr 1
      refine ih hn.2 hs (fun w hw => ?_)
      rw [← hm w (by simp [hw])]
      have : w ≠ a := fun h => hn.1 (h ▸ hw)
      simp [this]

theorem points_iff (d : Bytes) (p : Int) : Points d p ↔ p = score d - 1 := by
  have hr : ∀ s : List Bytes, (s.Sublist realWords ∧ ∀ w ∈ realWords, w ∈ s ↔ Says d w)
      ↔ s = realWords.filter (fun w => contains w (d.map toLower)) := by
    intro s
    constructor
    · rintro ⟨h1, h2⟩
      exact sublist_filter (by decide) h1 (fun w hw => by rw [h2 w hw, says_iff d w (small_words w (by simp [hw]))])
    · rintro rfl
      exact ⟨List.filter_sublist, fun w hw => by rw [List.mem_filter, says_iff d w (small_words w (by simp [hw]))]; simp [hw]⟩
  have hv : ∀ s : List Bytes, (s.Sublist virtualWords ∧ ∀ w ∈ virtualWords, w ∈ s ↔ Says d w)
      ↔ s = virtualWords.filter (fun w => contains w (d.map toLower)) := by
    intro s
    constructor
    · rintro ⟨h1, h2⟩
      exact sublist_filter (by decide) h1 (fun w hw => by rw [h2 w hw, says_iff d w (small_words w (by simp [hw]))])
    · rintro rfl
      exact ⟨List.filter_sublist, fun w hw => by rw [List.mem_filter, says_iff d w (small_words w (by simp [hw]))]; simp [hw]⟩
  have key : Points d p ↔ p = (if d = [] then 0 else 1) + 2 * ((realWords.filter (fun w => contains w (d.map toLower))).length : Int)
      - 2 * ((virtualWords.filter (fun w => contains w (d.map toLower))).length : Int) := by
    unfold Points
    constructor
    · rintro ⟨r, v, h1, h2, h3, h4, h5⟩
      rw [← (hr r).mp ⟨h1, h3⟩, ← (hv v).mp ⟨h2, h4⟩]; exact h5
    · intro h
      obtain ⟨a1, a2⟩ := (hr _).mpr rfl
      obtain ⟨b1, b2⟩ := (hv _).mpr rfl
      exact ⟨_, _, a1, b1, a2, b2, h⟩
  rw [key]; clear key hr hv
  unfold score bads goods realWords virtualWords
  simp only [List.map_cons, List.map_nil, List.sum_cons, List.sum_nil, List.filter_cons, List.filter_nil]
  generalize contains (b!"realtek") (d.map toLower) = r1
  generalize contains (b!"intel") (d.map toLower) = r2
  generalize contains (b!"wireless") (d.map toLower) = r3
  generalize contains (b!"virtual") (d.map toLower) = v1
  generalize contains (b!"ppp") (d.map toLower) = v2
  generalize contains (b!"tunnel") (d.map toLower) = v3
  generalize contains (b!"vpn") (d.map toLower) = v4
  generalize (if d = [] then (0 : Int) else 1) = x
  cases r1 <;> cases r2 <;> cases r3 <;> cases v1 <;> cases v2 <;> cases v3 <;> cases v4 <;>
    simp <;> omega

/-- **C61**: adapters with more points come first; nothing is said about adapters with the same points. -/
theorem C61_order {n : Net} (hs : n.Sorts) {l : List IpAdapter} (hd : Delivers n l) {r : List (Bytes × Adapter)}
    (h : n.getAdapterInfosNamed = .ok (.ok, r)) : r.Pairwise (fun x y => ∀ p q, Points x.1 p → Points y.1 q → q ≤ p) := by
  rw [delivered hd] at h
  unfold Net.collect at h
  obtain ⟨t, _, h⟩ := Outcome.bind_eq_ok.mp h
  simp only [Outcome.ok.injEq] at h
  split at h
  · simp at h
  · simp only [Prod.mk.injEq, true_and] at h
    rw [← h]
    refine (hs t).2.imp ?_
    intro a b hab p q hp hq
    rw [points_iff] at hp hq
    omega

/-- **C61**: what is reported if memory is short or the second call fails. -/
theorem C61_failure_codes (n : Net) :
    (n.alloc = false → n.getAdapterInfosNamed = .ok (.error, []))
    ∧ (n.alloc = true → n.first = .overflow → n.alloc2 = false ∨ n.second = .overflow →
        n.getAdapterInfosNamed = .ok (.bufferTooSmall, []))
    ∧ (n.alloc = true → n.first = .overflow → n.alloc2 = true → n.second = .other →
        n.getAdapterInfosNamed = .ok (.error, [])) := by
  unfold Net.getAdapterInfosNamed
  refine ⟨fun h => by rw [if_pos h], fun h1 h2 h3 => ?_, fun h1 h2 h3 h4 => ?_⟩
  · rw [h1, h2, if_neg (by simp)]
    rcases h3 with h3 | h3
    · simp [h3]
    · rw [h3]; cases n.alloc2 <;> rfl
  · rw [h1, h2, h3, h4]; rfl

/-- **C61** (the property "enumerating adapters is safe" fails): if Windows reports that there is no adapter, or any error other
    than a small buffer, uninitialised memory is read. -/
theorem C61_no_adapter_ub {n : Net} (ha : n.alloc = true) (hf : n.first = .other) : n.getAdapterInfosNamed = .ub := by
  unfold Net.getAdapterInfosNamed; rw [ha, hf]; rfl

/-! ### Concrete cases -/

/-- Sorting by insertion. -/
def insertByScore (x : Bytes × Adapter) : List (Bytes × Adapter) → List (Bytes × Adapter)
  | [] => [x]
  | y :: l => if score y.1 ≤ score x.1 then x :: y :: l else y :: insertByScore x l

def sortByScore : List (Bytes × Adapter) → List (Bytes × Adapter)
  | [] => []
  | x :: l => insertByScore x (sortByScore l)

theorem insertByScore_perm (x : Bytes × Adapter) (l : List (Bytes × Adapter)) : (insertByScore x l).Perm (x :: l) := by
  induction l with
  | nil => exact List.Perm.refl _
  | cons y l ih =>
    unfold insertByScore
    split
    · exact List.Perm.refl _
    · exact (List.Perm.cons y ih).trans (List.Perm.swap x y l)

theorem insertByScore_sorted (x : Bytes × Adapter) (l : List (Bytes × Adapter))
    (h : l.Pairwise (fun a b => ¬ score b.1 > score a.1)) : (insertByScore x l).Pairwise (fun a b => ¬ score b.1 > score a.1) := by
  induction l with
  | nil => simp [insertByScore]
  | cons y l ih =>
    rw [List.pairwise_cons] at h
    unfold insertByScore
    split
    · rename_i hxy
      refine List.pairwise_cons.mpr ⟨fun z hz => ?_, List.pairwise_cons.mpr h⟩
      rcases List.mem_cons.mp hz with rfl | hz
      · omega
      · have := h.1 z hz; omega
    · rename_i hxy
      refine List.pairwise_cons.mpr ⟨fun z hz => ?_, ih h.2⟩
      rcases List.mem_cons.mp ((insertByScore_perm x l).mem_iff.mp hz) with rfl | hz
      · omega
      · exact h.1 z hz

theorem sortByScore_spec (l : List (Bytes × Adapter)) : (sortByScore l).Perm l
    ∧ (sortByScore l).Pairwise (fun a b => ¬ score b.1 > score a.1) := by
  induction l with
  | nil => exact ⟨List.Perm.refl _, List.Pairwise.nil⟩
  | cons x l ih => exact ⟨(insertByScore_perm x _).trans (List.Perm.cons x ih.1), insertByScore_sorted x _ ih.2⟩

/-- A VPN adapter, a network card, a wireless card without address, a modem. -/
def sampleNetWin : Net where
  alloc := true
  alloc2 := true
  first := .noError [⟨true, b!"TAP VPN adapter", 6, [0, 255, 1, 2, 3, 4, 0, 0], b!"10.8.0.6"⟩,
    ⟨true, b!"Intel(R) Ethernet", 6, [2, 0x42, 0xac, 17, 0, 2, 0, 0], b!"192.168.0.25"⟩,
    ⟨true, b!"Wireless", 6, [0, 0, 0, 0, 0, 0, 0, 0], b!"0.0.0.0"⟩, ⟨false, b!"PPP", 0, [0, 0, 0, 0, 0, 0, 0, 0], b!"0.0.0.0"⟩]
  second := .other
  sort := sortByScore

example : sampleNetWin.Sorts := sortByScore_spec

example : sampleNetWin.getAdapterInfos = .ok (.ok,
    [⟨⟨2, 0x42, 0xac, 17, 0, 2⟩, ⟨192, 168, 0, 25⟩⟩, ⟨⟨0, 255, 1, 2, 3, 4⟩, ⟨10, 8, 0, 6⟩⟩]) := by decide +kernel

example : ∃ l, Delivers sampleNetWin l ∧ Proper l ∧ ∃ a ∈ l, Usable a := by
  refine ⟨_, .first rfl rfl, ?_, ⟨true, b!"TAP VPN adapter", 6, [0, 255, 1, 2, 3, 4, 0, 0], b!"10.8.0.6"⟩, by simp, rfl, 255,
    by decide, by decide⟩
  intro a ha
  simp only [List.mem_cons, List.not_mem_nil, or_false] at ha
  rcases ha with rfl | rfl | rfl | rfl
  · exact ⟨⟨10, 8, 0, 6⟩, by decide⟩
  · exact ⟨⟨192, 168, 0, 25⟩, by decide⟩
  · exact ⟨⟨0, 0, 0, 0⟩, by decide⟩
  · exact ⟨⟨0, 0, 0, 0⟩, by decide⟩

example : SaysReal (b!"Intel(R) Ethernet") ∧ ¬ SaysVirtual (b!"Intel(R) Ethernet") ∧ SaysVirtual (b!"TAP VPN adapter")
    ∧ ¬ SaysReal (b!"TAP VPN adapter") := by
  simp only [SaysReal, SaysVirtual, says_iff _ (b!"realtek") (small_words _ (by decide)), says_iff _ (b!"intel") (small_words _ (by decide)),
    says_iff _ (b!"wireless") (small_words _ (by decide)), says_iff _ (b!"virtual") (small_words _ (by decide)),
    says_iff _ (b!"ppp") (small_words _ (by decide)), says_iff _ (b!"tunnel") (small_words _ (by decide)),
    says_iff _ (b!"vpn") (small_words _ (by decide))]; decide +kernel

end Licensecc.Win
