import Verif.Spec.CpuInfo
import Verif.Props.ExecEnv
import Verif.Props.Smbios
/-!
# C68: what the library reads from the processor
-/
namespace Licensecc
open Spec

/-! ## Registers and bytes -/

theorem holds_bytes32 (x : UInt32) : Holds x (Regs.bytes32 x) := by
  refine ⟨_, _, _, _, rfl, ?_⟩
  have h := x.toNat_lt
  simp only [UInt32.toNat_toUInt8, UInt32.toNat_shiftRight, Nat.shiftRight_eq_div_pow]
  have : (8 : UInt32).toNat % 32 = 8 := rfl
  have : (16 : UInt32).toNat % 32 = 16 := rfl
  have : (24 : UInt32).toNat % 32 = 24 := rfl
  simp only [*]
  omega

theorem holds_iff (x : UInt32) (b : Bytes) : Holds x b ↔ b = Regs.bytes32 x := by
  constructor
  · rintro ⟨b0, b1, b2, b3, rfl, h⟩
    obtain ⟨c0, c1, c2, c3, hc, h'⟩ := holds_bytes32 x
    rw [hc]
    have a0 := b0.toNat_lt; have a1 := b1.toNat_lt; have a2 := b2.toNat_lt; have a3 := b3.toNat_lt
    have d0 := c0.toNat_lt; have d1 := c1.toNat_lt; have d2 := c2.toNat_lt; have d3 := c3.toNat_lt
    have e0 : b0 = c0 := UInt8.toNat_inj.mp (by omega)
    have e1 : b1 = c1 := UInt8.toNat_inj.mp (by omega)
    have e2 : b2 = c2 := UInt8.toNat_inj.mp (by omega)
    have e3 : b3 = c3 := UInt8.toNat_inj.mp (by omega)
    subst e0 e1 e2 e3; rfl
  · rintro rfl; exact holds_bytes32 x

theorem holds4_iff (r : Regs) (b : Bytes) : Holds4 r b ↔ b = r.bytes := by
  simp only [Holds4, holds_iff, Regs.bytes]
  constructor
  · rintro ⟨_, _, _, _, rfl, rfl, rfl, rfl, rfl⟩; rfl
  · rintro rfl; exact ⟨_, _, _, _, rfl, rfl, rfl, rfl, rfl⟩

theorem length_bytes (r : Regs) : r.bytes.length = 16 := rfl

theorem vendorIs_iff (c : Cpu) (v : Bytes) : VendorIs c v ↔
    v = Regs.bytes32 (c 0).ebx ++ Regs.bytes32 (c 0).edx ++ Regs.bytes32 (c 0).ecx := by
  simp only [VendorIs, holds_iff]
  constructor
  · rintro ⟨_, _, _, rfl, rfl, rfl, rfl⟩; rfl
  · rintro rfl; exact ⟨_, _, _, rfl, rfl, rfl, rfl⟩

theorem textOf_iff (b t : Bytes) : TextOf b t ↔ t = b.takeWhile (· ≠ 0) := by
  unfold TextOf
  induction b generalizing t with
  | nil => cases t <;> simp
  | cons x b ih =>
    by_cases hx : x = 0
    · subst hx
      cases t with
      | nil => simp
      | cons y t => simp; grind
    · cases t with
      | nil => simp [hx]
      | cons y t =>
        have := ih t
        simp only [List.takeWhile_cons, ne_eq, hx, not_false_eq_true, decide_true, if_true, List.cons.injEq] at this ⊢
        rw [← this]
        grind

theorem textOf_unique {b t t' : Bytes} (h : TextOf b t) (h' : TextOf b t') : t = t' := by
  rw [(textOf_iff ..).mp h, (textOf_iff ..).mp h']

theorem brandIs_iff (c : Cpu) (t : Bytes) : BrandIs c t ↔
    t = ((c 0x80000002).bytes ++ (c 0x80000003).bytes ++ (c 0x80000004).bytes).takeWhile (· ≠ 0) := by
  simp only [BrandIs, BrandThirds, holds4_iff, textOf_iff]
  constructor
  · rintro ⟨_, _, _, ⟨rfl, rfl, rfl⟩, h⟩; exact h
  · intro h; exact ⟨_, _, _, ⟨rfl, rfl, rfl⟩, h⟩

theorem takeWhile_zeros (b : Bytes) (n : Nat) : (b ++ List.replicate n 0).takeWhile (· ≠ 0) = b.takeWhile (· ≠ 0) := by
  induction b with
  | nil => cases n <;> simp [List.replicate_succ]
  | cons x b ih =>
    simp only [List.cons_append, List.takeWhile_cons, ih]

theorem getCpuid_eq (c : Cpu) (l : UInt32) : c.getCpuid l =
    if (c (l &&& 0x80000000)).eax = 0 ∨ (c (l &&& 0x80000000)).eax < l then ⟨0, 0, 0, 0⟩ else c l := rfl

theorem linuxBrand_eq (c : Cpu) : Linux.cpuBrand c = if (c 0x80000004).eax = 0 then b!"NA"
    else ((c.getCpuid 0x80000002).bytes ++ (c.getCpuid 0x80000003).bytes ++ (c.getCpuid 0x80000004).bytes
      ++ List.replicate 16 0).takeWhile (· ≠ 0) := rfl

/-! ## Vendor -/

/-- **C68**: on Linux the vendor is the twelve bytes the processor gives, or twelve NULs if it knows no number but 0. -/
theorem C68_vendor_linux (c : Cpu) (v : Bytes) : Linux.cpuVendor c = v ↔
    (KnowsItself c ∧ VendorIs c v) ∨ (¬ KnowsItself c ∧ v = List.replicate 12 0) := by
  have h0 : ((0 : UInt32) &&& 0x80000000) = 0 := rfl
  have hl : ¬ (c 0).eax < 0 := by simp [UInt32.lt_iff_toNat_lt]
  have hi : KnowsItself c ↔ ¬ (c 0).eax = 0 := by
    rw [KnowsItself, ← UInt32.toNat_inj]; simp; omega
  have hz : ¬ 0 < (0 : UInt32) := by decide
  simp only [Linux.cpuVendor, getCpuid_eq, h0, hi, Classical.not_not, vendorIs_iff]
  by_cases h : (c 0).eax = 0
  · rw [if_pos (.inl h)]; simp only [h, not_true_eq_false, false_and, true_and, false_or]
    exact eq_comm
  · rw [if_neg (by simp [h, hl])]; simp only [h, not_false_eq_true, true_and, false_and, or_false]
    exact eq_comm

/-- **C68**: on Windows it is always the twelve bytes the processor gives. -/
theorem C68_vendor_windows (c : Cpu) (v : Bytes) : Win.cpuVendor c = v ↔ VendorIs c v := by
  rw [vendorIs_iff]; exact eq_comm

/-! ## Brand -/

theorem not_hasBrand (c : Cpu) : HasBrand c ↔ ¬ (c 0x80000000).eax < 0x80000004 := by
  rw [UInt32.lt_iff_toNat_lt, show (0x80000004 : UInt32).toNat = 0x80000004 from rfl, HasBrand]; omega

theorem max_ne_zero {c : Cpu} (h : HasBrand c) : ¬ (c 0x80000000).eax = 0 := by
  intro h0; rw [HasBrand, h0] at h; simp at h

/-- **C68**: on Windows the brand is the text the processor gives, or "NA" if it has none. -/
theorem C68_brand_windows (c : Cpu) (t : Bytes) : Win.cpuBrand c = t ↔ (HasBrand c ∧ BrandIs c t) ∨ (¬ HasBrand c ∧ t = b!"NA") := by
  have e1 : (0x80000002 : UInt32) + 1 = 0x80000003 := rfl
  have e2 : (0x80000002 : UInt32) + 2 = 0x80000004 := rfl
  have hb : HasBrand c ↔ (c 0x80000000).eax ≥ 0x80000004 := by
    rw [ge_iff_le, UInt32.le_iff_toNat_le]; rfl
  simp only [Win.cpuBrand, e1, e2, takeWhile_zeros, brandIs_iff, hb]
  by_cases h : (c 0x80000000).eax ≥ 0x80000004
  · rw [if_pos h]; simp only [h, true_and, not_true_eq_false, false_and, or_false]; exact eq_comm
  · rw [if_neg h]; simp only [h, not_false_eq_true, true_and, false_and, false_or]; exact eq_comm

/-- **C68**: on Linux the brand of a processor that has one is its text if the 33rd to 36th byte are not all NUL, and "NA"
    otherwise. -/
theorem C68_brand_linux {c : Cpu} (h : HasBrand c) {p q r : Bytes} (hb : BrandThirds c p q r) (t : Bytes) :
    Linux.cpuBrand c = t ↔ (r.take 4 ≠ [0, 0, 0, 0] ∧ TextOf (p ++ q ++ r) t) ∨ (r.take 4 = [0, 0, 0, 0] ∧ t = b!"NA") := by
  obtain ⟨hp, hq, hr⟩ := hb
  rw [holds4_iff] at hp hq hr
  subst hp hq hr
  have hz : (c 0x80000004).eax = 0 ↔ ((c 0x80000004).bytes).take 4 = [0, 0, 0, 0] := by
    have e : ((c 0x80000004).bytes).take 4 = Regs.bytes32 (c 0x80000004).eax := rfl
    rw [e]
    constructor
    · intro h; rw [h]; rfl
    · intro h
      obtain ⟨a, b, d, f, h1, h2⟩ := (holds_iff (c 0x80000004).eax [0, 0, 0, 0]).mpr h.symm
      cases h1
      exact UInt32.toNat_inj.mp (by rw [h2]; rfl)
  have g : ∀ l : UInt32, l &&& 0x80000000 = 0x80000000 → l ≤ 0x80000004 → c.getCpuid l = c l := by
    intro l h1 h2
    rw [getCpuid_eq, h1, if_neg]
    have := max_ne_zero h
    rintro (h3 | h3)
    · exact this h3
    · rw [UInt32.lt_iff_toNat_lt] at h3
      rw [UInt32.le_iff_toNat_le] at h2
      have h4 : 0x80000004 ≤ (c 0x80000000).eax.toNat := h
      have h5 : l.toNat ≤ 0x80000004 := h2
      omega
  rw [linuxBrand_eq]
  rw [g _ rfl (by decide), g _ rfl (by decide), g _ rfl (by decide)]
  rw [takeWhile_zeros, textOf_iff, ne_eq, ← hz]
  by_cases h0 : (c 0x80000004).eax = 0
  · rw [if_pos h0]; simp only [h0, ne_eq, not_true_eq_false, false_and, true_and, false_or]; exact eq_comm
  · rw [if_neg h0]; simp only [h0, ne_eq, not_false_eq_true, true_and, false_and, or_false]; exact eq_comm

theorem thirds_exist (c : Cpu) : ∃ p q r, BrandThirds c p q r :=
  ⟨_, _, _, (holds4_iff ..).mpr rfl, (holds4_iff ..).mpr rfl, (holds4_iff ..).mpr rfl⟩

theorem length_thirds {c : Cpu} {p q r : Bytes} (h : BrandThirds c p q r) : p.length = 16 ∧ q.length = 16 ∧ r.length = 16 := by
  obtain ⟨hp, hq, hr⟩ := h
  rw [holds4_iff] at hp hq hr
  subst hp hq hr
  exact ⟨rfl, rfl, rfl⟩

/-- **C68** (the property "the brand is the processor's" fails on Linux): for every processor whose brand is a text of at most 32
    bytes padded with NULs the library has "NA" on Linux, where it has the text on Windows. -/
theorem C68_short_brand_lost {c : Cpu} (h : HasBrand c) {p q : Bytes} (hb : BrandThirds c p q (List.replicate 16 0)) {t : Bytes}
    (ht : TextOf (p ++ q) t) : Linux.cpuBrand c = b!"NA" ∧ Win.cpuBrand c = t := by
  refine ⟨(C68_brand_linux h hb _).mpr (.inr ⟨rfl, rfl⟩), (C68_brand_windows c t).mpr (.inl ⟨h, p, q, _, hb, ?_⟩)⟩
  rw [textOf_iff, takeWhile_zeros, ← textOf_iff]; exact ht

/-- **C68**: with more than 32 bytes of text both systems have the processor's brand. -/
theorem C68_long_brand_kept {c : Cpu} (h : HasBrand c) {t : Bytes} (ht : BrandIs c t) (hl : 32 < t.length) :
    Linux.cpuBrand c = t ∧ Win.cpuBrand c = t := by
  refine ⟨?_, (C68_brand_windows c t).mpr (.inl ⟨h, ht⟩)⟩
  obtain ⟨p, q, r, hb, hx⟩ := ht
  refine (C68_brand_linux h hb t).mpr (.inl ⟨?_, hx⟩)
  intro h0
  obtain ⟨lp, lq, lr⟩ := length_thirds hb
  obtain ⟨hn, hx⟩ := hx
  have h1 : (p ++ q ++ r)[32]? = some 0 := by
    rw [List.getElem?_append_right (by simp; omega)]
    simp only [List.length_append, lp, lq]
    have := congrArg (·[0]?) h0
    simpa using this
  have h2 : t[32]? = some 0 := by
    rcases hx with hx | ⟨s, hx⟩
    · rw [← hx]; exact h1
    · rw [hx, List.getElem?_append_left hl] at h1; exact h1
  exact hn (List.mem_of_getElem? h2)

/-- **C68**: a processor that knows fewer extended numbers has "NA" on Windows; on Linux "NA", or the empty text or a part of what the
    processor gives if its answer to the unknown number is not 0. -/
theorem C68_no_brand {c : Cpu} (h : ¬ HasBrand c) : Win.cpuBrand c = b!"NA" ∧
    (Linux.cpuBrand c = b!"NA" ∨ ∃ b, Linux.cpuBrand c = b.takeWhile (· ≠ 0)
      ∧ (b = [] ∨ b = (c 0x80000002).bytes ∨ b = (c 0x80000002).bytes ++ (c 0x80000003).bytes)) := by
  refine ⟨(C68_brand_windows c _).mpr (.inr ⟨h, rfl⟩), ?_⟩
  rw [not_hasBrand, Classical.not_not, UInt32.lt_iff_toNat_lt, show (0x80000004 : UInt32).toNat = 0x80000004 from rfl] at h
  have g : ∀ l : UInt32, l &&& 0x80000000 = 0x80000000 → l ≠ 0 → c.getCpuid l =
      if (c 0x80000000).eax.toNat < l.toNat then ⟨0, 0, 0, 0⟩ else c l := by
    intro l h1 h2
    rw [getCpuid_eq, h1]
    by_cases h3 : (c 0x80000000).eax.toNat < l.toNat
    · rw [if_pos (.inr (UInt32.lt_iff_toNat_lt.mpr h3)), if_pos h3]
    · rw [if_neg h3, if_neg]
      rintro (h4 | h4)
      · rw [h4] at h3
        have : l.toNat ≠ 0 := fun h5 => h2 (UInt32.toNat_inj.mp h5)
        simp at h3; omega
      · exact h3 (UInt32.lt_iff_toNat_lt.mp h4)
  rw [linuxBrand_eq]
  by_cases h0 : (c 0x80000004).eax = 0
  · left; rw [if_pos h0]
  · right
    rw [if_neg h0, g _ rfl (by decide), g _ rfl (by decide), g _ rfl (by decide)]
    rw [show (0x80000004 : UInt32).toNat = 0x80000004 from rfl, show (0x80000003 : UInt32).toNat = 0x80000003 from rfl,
      show (0x80000002 : UInt32).toNat = 0x80000002 from rfl]
    rw [takeWhile_zeros, if_pos h]
    have hz : (Regs.mk 0 0 0 0).bytes = List.replicate 16 0 := rfl
    rw [hz, takeWhile_zeros]
    by_cases h3 : (c 0x80000000).eax.toNat < 0x80000003
    · rw [if_pos h3, hz, takeWhile_zeros]
      by_cases h2 : (c 0x80000000).eax.toNat < 0x80000002
      · rw [if_pos h2, hz]; exact ⟨[], rfl, .inl rfl⟩
      · rw [if_neg h2]; exact ⟨_, rfl, .inr (.inl rfl)⟩
    · rw [if_neg h3, if_neg (by omega)]; exact ⟨_, rfl, .inr (.inr rfl)⟩

/-! ## The hypervisor bit -/

theorem bit31 (x : UInt32) : (((x >>> 31) &&& 1) = 1 ↔ 2 ^ 31 ≤ x.toNat) ∧ (((x >>> 31) &&& 1) ≠ 0 ↔ 2 ^ 31 ≤ x.toNat) := by
  have h := x.toNat_lt
  have e : ((x >>> 31) &&& 1).toNat = x.toNat / 2 ^ 31 % 2 := by
    rw [UInt32.toNat_and, UInt32.toNat_shiftRight, Nat.shiftRight_eq_div_pow]
    exact Nat.and_one_is_mod _
  rw [ne_eq, ← UInt32.toNat_inj, ← UInt32.toNat_inj, e]
  constructor
  · rw [show (1 : UInt32).toNat = 1 from rfl]; omega
  · rw [show (0 : UInt32).toNat = 0 from rfl]; omega

/-- **C68**: the hypervisor bit. -/
theorem C68_hypervisor (c : Cpu) : (Win.hypervisorSet c = true ↔ SaysVirtual c)
    ∧ (Linux.hypervisorSet c = true ↔ KnowsItself c ∧ SaysVirtual c) := by
  constructor
  · simp only [Win.hypervisorSet, bne_iff_ne]; exact (bit31 _).2
  · simp only [Linux.hypervisorSet, beq_iff_eq, (bit31 _).1]
    have e : ((1 : UInt32) &&& 0x80000000) = 0 := rfl
    rw [getCpuid_eq, e]
    have hi : KnowsItself c ↔ ¬ ((c 0).eax = 0 ∨ (c 0).eax < 1) := by
      rw [KnowsItself, ← UInt32.toNat_inj, UInt32.lt_iff_toNat_lt]; simp; omega
    by_cases h : (c 0).eax = 0 ∨ (c 0).eax < 1
    · rw [if_pos h, hi]; simp only [h, not_true_eq_false, false_and, iff_false]; decide
    · rw [if_neg h, hi]; simp only [h, not_false_eq_true, true_and]; exact Iff.rfl

/-! ## The model number -/

theorem mask_high (n : Nat) : n &&& 0x3FF8000 = 2 ^ 15 * (n / 2 ^ 15 % 2 ^ 11) := by
  apply Nat.eq_of_testBit_eq
  intro i
  rw [show 0x3FF8000 = 2 ^ 15 * (2 ^ 11 - 1) from rfl, Nat.testBit_and, Nat.testBit_two_pow_mul, Nat.testBit_two_pow_mul,
    Nat.testBit_mod_two_pow, Nat.testBit_two_pow_sub_one, Nat.testBit_div_two_pow]
  by_cases h : 15 ≤ i
  · rw [show i - 15 + 15 = i by omega]
    cases n.testBit i <;> simp [h]
  · simp [h]

theorem word_eq (a b : UInt32) : ((a &&& (0x3FFF : UInt32)) ||| ((a &&& (0x3FF8000 : UInt32)) >>> (2 : UInt32)) ||| ((b &&& (0xff : UInt32)) <<< (24 : UInt32))).toNat
    = ((a.toNat % 2 ^ 14) ||| (2 ^ 13 * (a.toNat / 2 ^ 15 % 2 ^ 11))) + 2 ^ 24 * (b.toNat % 2 ^ 8) := by
  have e1 : (a &&& 0x3FFF).toNat = a.toNat % 2 ^ 14 := by
    rw [UInt32.toNat_and]; exact Nat.and_two_pow_sub_one_eq_mod _ 14
  have e2 : ((a &&& 0x3FF8000) >>> 2).toNat = 2 ^ 13 * (a.toNat / 2 ^ 15 % 2 ^ 11) := by
    rw [UInt32.toNat_shiftRight, UInt32.toNat_and, Nat.shiftRight_eq_div_pow, show (0x3FF8000 : UInt32).toNat = 0x3FF8000 from rfl,
      mask_high, show (2 : UInt32).toNat % 32 = 2 from rfl]
    omega
  have e3 : ((b &&& 0xff) <<< 24).toNat = 2 ^ 24 * (b.toNat % 2 ^ 8) := by
    rw [UInt32.toNat_shiftLeft, UInt32.toNat_and, show (0xff : UInt32).toNat = 2 ^ 8 - 1 from rfl,
      Nat.and_two_pow_sub_one_eq_mod, show (24 : UInt32).toNat % 32 = 24 from rfl, Nat.shiftLeft_eq]
    omega
  rw [UInt32.toNat_or, UInt32.toNat_or, e1, e2, e3, Nat.or_comm, ← Nat.two_pow_add_eq_or_of_lt, Nat.add_comm]
  exact Nat.or_lt_two_pow (by omega) (by omega)

theorem or_high (x y : Nat) (hx : x < 2 ^ 14) : x ||| (2 ^ 13 * (2 * y)) = x + 2 ^ 14 * y := by
  rw [show 2 ^ 13 * (2 * y) = 2 ^ 14 * y by omega, Nat.or_comm, ← Nat.two_pow_add_eq_or_of_lt hx, Nat.add_comm]

/-- **C68**: the model number on both systems: stepping, model, family, type, extended model, the low six of the eight bits of the
    extended family, and brand index, one after the other. -/
theorem C68_model {c : Cpu} {s : Signature} (hi : KnowsItself c) (h : HasSignature c s) (w : UInt32)
    (hw : w = Linux.cpuModel c ∨ w = Win.cpuModel c) :
    w.toNat = s.stepping + 2 ^ 4 * s.model + 2 ^ 8 * s.family + 2 ^ 12 * s.type + 2 ^ 14 * s.extModel + 2 ^ 18 * (s.extFamily % 64)
      + 2 ^ 24 * s.brandIndex := by
  have e : Linux.cpuModel c = Win.cpuModel c := by
    have h1 : c.getCpuid 1 = c 1 := by
      rw [getCpuid_eq, show ((1 : UInt32) &&& 0x80000000) = 0 from rfl, if_neg]
      rw [← UInt32.toNat_inj, UInt32.lt_iff_toNat_lt]
      have : 1 ≤ (c 0).eax.toNat := hi
      simp; omega
    simp only [Linux.cpuModel, Win.cpuModel, h1]
  rw [e, or_self] at hw
  subst hw
  obtain ⟨ha, h1, h2, h3, h4, h5, h6, r, hb, h7⟩ := h
  have hx : (c 1).eax.toNat / 2 ^ 15 % 2 ^ 11 = 2 * (s.extModel + 2 ^ 4 * (s.extFamily % 64)) := by omega
  rw [Win.cpuModel, word_eq, hx, or_high _ _ (by omega)]
  omega

/-- **C68**: two processors have the same model number exactly when they agree in everything but a multiple of 64 in the extended
    family. -/
theorem C68_same_model {c c' : Cpu} {s s' : Signature} (hi : KnowsItself c) (hi' : KnowsItself c') (h : HasSignature c s)
    (h' : HasSignature c' s') : Linux.cpuModel c = Linux.cpuModel c' ↔
      { s with extFamily := s.extFamily % 64 } = { s' with extFamily := s'.extFamily % 64 } := by
  have w := C68_model hi h _ (.inl rfl)
  have w' := C68_model hi' h' _ (.inl rfl)
  obtain ⟨_, h1, h2, h3, h4, h5, h6, r, _, h7⟩ := h
  obtain ⟨_, g1, g2, g3, g4, g5, g6, r', _, g7⟩ := h'
  rw [← UInt32.toNat_inj, w, w', Signature.mk.injEq]
  omega

/-! ## What is detected -/

/-- **C68**: on Linux "no virtualisation" is reported exactly when no firmware text names a product or a cloud, the vendor of the
    processor names none, its hypervisor bit is clear, and its brand names none - or has no more than 32 bytes. -/
theorem C68_bare_linux {h : Host} {c : Cpu} (ho : h.Ordered) {e : Env} (he : mkEnv (h.WithCpu c) = .ok e) (hi : KnowsItself c)
    (hb : HasBrand c) {p q r v t : Bytes} (ht : BrandThirds c p q r) (htx : TextOf (p ++ q ++ r) t) (hv : VendorIs c v) :
    virtualizationDetail (h.WithCpu c) e = .bareToMetal ↔
      (∀ w ∈ vmWords, ¬ Mentions e.dmi.biosDescription w.1 ∧ ¬ Mentions e.dmi.biosVendor w.1 ∧ ¬ Mentions e.dmi.sysVendor w.1)
      ∧ ¬ NamesCloud e.dmi.biosDescription e.dmi.biosVendor e.dmi.sysVendor
      ∧ (∀ w ∈ cpuWords, ¬ Mentions v w.1) ∧ ¬ SaysVirtual c
      ∧ ((∀ w ∈ cpuWords, ¬ Mentions t w.1) ∨ r.take 4 = [0, 0, 0, 0]) := by
  have hvl : Linux.cpuVendor c = v := (C68_vendor_linux c v).mpr (.inl ⟨hi, hv⟩)
  have hna : ∀ w ∈ cpuWords, ¬ Mentions (b!"NA") w.1 := by
    intro w hw hm
    rw [← contains_iff] at hm
    exact absurd hm ((by decide : ∀ w ∈ cpuWords, ¬ contains w.1 b!"NA" = true) w hw)
  have hbl : (∀ w ∈ cpuWords, ¬ Mentions (Linux.cpuBrand c) w.1) ↔
      ((∀ w ∈ cpuWords, ¬ Mentions t w.1) ∨ r.take 4 = [0, 0, 0, 0]) := by
    rcases (C68_brand_linux hb ht _).mp rfl with ⟨h1, h2⟩ | ⟨h1, h2⟩
    · rw [textOf_unique h2 htx]; simp [h1]
    · rw [h2]; simp only [h1, or_true, iff_true]; exact hna
  have hy : (Linux.hypervisorSet c = false) ↔ ¬ SaysVirtual c := by
    have := (C68_hypervisor c).2
    rw [← Bool.not_eq_true, this]; simp [hi]
  rw [C45_bare_iff _ e he ho, ← hbl, ← hy, ← hvl]
  simp only [NamesVm, Host.WithCpu]
  grind

/-- **C68**: on Windows it is reported exactly when no firmware text, neither vendor nor brand of the processor names a product, the
    hypervisor bit is clear and no cloud is recognised. -/
theorem C68_bare_windows {h : Win.WinHost} {c : Cpu} (ho : h.common.Ordered) {e : Env} (he : (h.WithCpu c).mkEnv = .ok e)
    (hb : HasBrand c) {v t : Bytes} (ht : BrandIs c t) (hv : VendorIs c v) :
    virtualizationDetail (h.WithCpu c).common e = .bareToMetal ↔
      (∀ w ∈ vmWords, ¬ Mentions e.dmi.biosDescription w.1 ∧ ¬ Mentions e.dmi.biosVendor w.1 ∧ ¬ Mentions e.dmi.sysVendor w.1)
      ∧ isCloud e = false ∧ (∀ w ∈ cpuWords, ¬ Mentions v w.1) ∧ ¬ SaysVirtual c ∧ (∀ w ∈ cpuWords, ¬ Mentions t w.1) := by
  have hvl : Win.cpuVendor c = v := (C68_vendor_windows c v).mpr hv
  have hbl : Win.cpuBrand c = t := (C68_brand_windows c t).mpr (.inl ⟨hb, ht⟩)
  have hy : (Win.hypervisorSet c = false) ↔ ¬ SaysVirtual c := by
    rw [← Bool.not_eq_true, (C68_hypervisor c).1]
  obtain ⟨d, _, h3⟩ := Outcome.bind_eq_ok.mp he
  simp only [Outcome.ok.injEq] at h3
  subst h3
  rw [bare_iff (h.WithCpu c).common _ rfl rfl ho, ← hy, ← hvl, ← hbl]
  simp only [NamesVm, Win.WinHost.common, Win.WinHost.WithCpu]
  grind

/-! ## Examples -/

/-- A virtual processor as QEMU shows it: vendor GenuineIntel, brand "Common KVM processor". -/
def kvmCpu (leaf : UInt32) : Regs :=
  if leaf = 0 then ⟨13, 0x756e6547, 0x6c65746e, 0x49656e69⟩
  else if leaf = 1 then ⟨0xf61, 0x800, 0x80002001, 0x78bfbfd⟩
  else if leaf = 0x80000000 then ⟨0x80000008, 0, 0, 0⟩
  else if leaf = 0x80000002 then ⟨0x6d6d6f43, 0x4b206e6f, 0x70204d56, 0x65636f72⟩
  else if leaf = 0x80000003 then ⟨0x726f7373, 0, 0, 0⟩
  else ⟨0, 0, 0, 0⟩

example : Win.cpuVendor kvmCpu = b!"GenuineIntel" ∧ Linux.cpuVendor kvmCpu = b!"GenuineIntel" := ⟨rfl, rfl⟩
example : Win.cpuBrand kvmCpu = b!"Common KVM processor" := by decide
example : Linux.cpuBrand kvmCpu = b!"NA" := by decide
example : HasBrand kvmCpu ∧ KnowsItself kvmCpu ∧ SaysVirtual kvmCpu := by unfold HasBrand KnowsItself SaysVirtual; decide
example : BrandThirds kvmCpu (b!"Common KVM proce") (b!"ssor" ++ List.replicate 12 0) (List.replicate 16 0) := by
  refine ⟨?_, ?_, ?_⟩ <;> rw [holds4_iff] <;> rfl
example : HasSignature kvmCpu ⟨1, 6, 15, 0, 0, 0, 0⟩ := ⟨rfl, by decide, by decide, by decide, by decide, by decide, by decide, 8, rfl, by decide⟩

/-- The same with the hypervisor bit hidden. -/
def hiddenKvm (leaf : UInt32) : Regs := if leaf = 1 then ⟨0xf61, 0x800, 0x2001, 0x78bfbfd⟩ else kvmCpu leaf

/-- A computer without firmware texts. -/
def plainHost : Host := ⟨none, none, none, none, [], [], false, vmVendors, virtualCpuNames⟩

/-- **C68**: a virtual machine with a hidden hypervisor bit that its brand gives away is bare metal on Linux and KVM on Windows. -/
theorem C68_hidden_kvm : (∃ e, mkEnv (plainHost.WithCpu hiddenKvm) = .ok e ∧ virtualizationDetail (plainHost.WithCpu hiddenKvm) e = .bareToMetal)
    ∧ ∃ h : Win.WinHost, ∃ e, (h.WithCpu hiddenKvm).mkEnv = .ok e ∧ virtualizationDetail (h.WithCpu hiddenKvm).common e = .kvm :=
  ⟨⟨_, rfl, by decide⟩, ⟨none, [], [], false, vmVendors, virtualCpuNames⟩, _, rfl, by decide⟩

end Licensecc
