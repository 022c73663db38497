import Verif.Lemmas.Log
import Verif.Model.HwIdentifier
import Verif.Spec.Hardware
import Verif.Props.Base64
import Verif.Props.StringUtils
/-!
# Properties of hardware identifiers (C24 - C29)
-/
namespace Licensecc
namespace HwId

/-! ## C24 text form -/

/-- The text: the twelve characters of the encoding with dashes. -/
theorem print_eq (h : HwId) : ∃ e0 e1 e2 e3 e4 e5 e6 e7 e8 e9 e10,
    encodeChars h.toBytes = [e0, e1, e2, e3, e4, e5, e6, e7, e8, e9, e10, 61]
    ∧ (∀ e ∈ [e0, e1, e2, e3, e4, e5, e6, e7, e8, e9, e10], ∃ i, i < 64 ∧ e = b64Char i)
    ∧ h.print = .ok [e0, e1, e2, e3, 45, e4, e5, e6, e7, 45, e8, e9, e10, 61] := by
  obtain ⟨a, b, c, d, e, f, g, k⟩ := h
  refine ⟨_, _, _, _, _, _, _, _, _, _, _, rfl, ?_, ?_⟩
  · simp only [List.mem_cons, List.not_mem_nil, or_false, forall_eq_or_imp, forall_eq]
    exact ⟨⟨_, idx1 a, rfl⟩, ⟨_, idx2 a b, rfl⟩, ⟨_, idx3 b c, rfl⟩, ⟨_, idx4 c, rfl⟩, ⟨_, idx1 d, rfl⟩,
      ⟨_, idx2 d e, rfl⟩, ⟨_, idx3 e f, rfl⟩, ⟨_, idx4 f, rfl⟩, ⟨_, idx1 g, rfl⟩, ⟨_, idx2 g k, rfl⟩, ⟨_, idx3' k, rfl⟩⟩
  · have nl : ∀ i, i < 64 → b64Char i ≠ 10 := b64Char_ne_nl
    have hb : base64 (toBytes ⟨a, b, c, d, e, f, g, k⟩) 5 = .ok
        (if (5 : Int) ≠ 0 ∧ (encodeLoop 5 [] [a, b, c, d, e, f, g, k]).getLast? ≠ some 10
          then encodeLoop 5 [] [a, b, c, d, e, f, g, k] ++ [10] else encodeLoop 5 [] [a, b, c, d, e, f, g, k]) := rfl
    rw [print, hb]
    simp [encodeLoop, putChar, replaceByte, nl _ (idx1 a), nl _ (idx2 a b), nl _ (idx3 b c), nl _ (idx4 c),
      nl _ (idx1 d), nl _ (idx2 d e), nl _ (idx3 e f), nl _ (idx4 f), nl _ (idx1 g), nl _ (idx2 g k), nl _ (idx3' k)]

theorem b64Char_ne_dash : ∀ i, i < 64 → b64Char i ≠ 45 := by decide +kernel
theorem b64Char_isB64 : ∀ i, i < 64 → isB64Char (b64Char i) = true := by decide +kernel

/-- **C24**: the text form is `XXXX-XXXX-XXX=` over the base64 alphabet, for every identifier. -/
theorem C24_print_format (h : HwId) : ∃ e0 e1 e2 e3 e4 e5 e6 e7 e8 e9 e10,
    h.print = .ok [e0, e1, e2, e3, 45, e4, e5, e6, e7, 45, e8, e9, e10, 61]
    ∧ ∀ e ∈ [e0, e1, e2, e3, e4, e5, e6, e7, e8, e9, e10], e ∈ Spec.alphabet := by
  obtain ⟨e0, e1, e2, e3, e4, e5, e6, e7, e8, e9, e10, _, hc, hp⟩ := print_eq h
  refine ⟨e0, e1, e2, e3, e4, e5, e6, e7, e8, e9, e10, hp, ?_⟩
  intro e he
  obtain ⟨i, hi, rfl⟩ := hc e he
  have : ∀ i, i < 64 → b64Char i ∈ Spec.alphabet := by decide +kernel
  exact this i hi

/-- **C24**: parsing the text form gives back the identifier, all 8 bytes. -/
theorem C24_round_trip (h : HwId) (s : Bytes) (hs : h.print = .ok s) : HwId.ofString s = .ok h := by
  obtain ⟨e0, e1, e2, e3, e4, e5, e6, e7, e8, e9, e10, he, hc, hp⟩ := print_eq h
  rw [hp] at hs; injection hs with hs; subst hs
  have hd : ∀ e ∈ [e0, e1, e2, e3, e4, e5, e6, e7, e8, e9, e10], e ≠ 45 ∧ notNL e = true := by
    intro e he
    obtain ⟨i, hi, rfl⟩ := hc e he
    exact ⟨b64Char_ne_dash i hi, by simp [notNL, b64Char_ne_nl i hi]⟩
  simp only [List.mem_cons, List.not_mem_nil, or_false, forall_eq_or_imp, forall_eq] at hd
  have hf : (replaceByte 45 10 [e0, e1, e2, e3, 45, e4, e5, e6, e7, 45, e8, e9, e10, 61]).filter notNL
      = encodeChars h.toBytes := by
    rw [he]
    simp [replaceByte, hd, show notNL 10 = false from rfl, show notNL 61 = true from rfl]
  have := unbase64_of_filter _ h.toBytes (by simp [toBytes]) (by simp [toBytes]) hf
  simp only [ofString, this, toBytes]

/-- **C24**: different identifiers print differently. -/
theorem C24_print_injective (h k : HwId) (s : Bytes) (h1 : h.print = .ok s) (h2 : k.print = .ok s) : h = k := by
  have a := C24_round_trip h s h1; rw [C24_round_trip k s h2] at a; injection a with a; exact a.symm

example : (⟨0, 64, 1, 2, 3, 4, 5, 6⟩ : HwId).print = .ok b!"AEAB-AgME-BQY=" := by decide

/-! ## C25 equality and setters -/

theorem d1_split (x y : UInt8) : (((x >>> 5).toNat : Int) = ((y >>> 5).toNat : Int) ∧ y &&& 0x1F = x &&& 0x1F) ↔ x = y := by
  constructor
  · rintro ⟨h1, h2⟩
    have h1 : (x >>> 5).toNat = (y >>> 5).toNat := by exact_mod_cast h1
    have h2 := congrArg UInt8.toNat h2
    simp only [UInt8.toNat_shiftRight, UInt8.toNat_and, Nat.shiftRight_eq_div_pow] at h1 h2
    have e : ∀ n : Nat, n &&& (0x1F : UInt8).toNat = n % 32 := fun n => Nat.and_two_pow_sub_one_eq_mod n 5
    rw [e, e] at h2
    have hx := x.toNat_lt; have hy := y.toNat_lt
    apply UInt8.toNat_inj.mp
    have e5 : (2 ^ ((5 : UInt8).toNat % 8)) = 32 := by decide
    rw [e5] at h1
    omega
  · rintro rfl; exact ⟨rfl, rfl⟩

/-- **C25**: two identifiers compare equal iff bytes 1 to 7 agree; byte 0 is ignored. -/
theorem C25_eq_iff (l r : HwId) : l.eq r = true ↔
    l.d1 = r.d1 ∧ l.d2 = r.d2 ∧ l.d3 = r.d3 ∧ l.d4 = r.d4 ∧ l.d5 = r.d5 ∧ l.d6 = r.d6 ∧ l.d7 = r.d7 := by
  simp only [eq, Bool.and_eq_true, decide_eq_true_eq, beq_iff_eq]
  have := d1_split l.d1 r.d1
  simp only [strategy]
  rw [this]
  simp only [and_assoc]

/-- Bit facts about one byte, for all bytes. -/
theorem strategy_bits (x : UInt8) (n : Fin 8) :
    ((x &&& 0x1F) ||| UInt8.ofNat (((n.val : Int) * 32) % 256).toNat) >>> 5 = UInt8.ofNat n.val
    ∧ ((x &&& 0x1F) ||| UInt8.ofNat (((n.val : Int) * 32) % 256).toNat) &&& 0x1F = x &&& 0x1F := by
  revert n x
  have : ∀ x : UInt8, ∀ n : Fin 8, ((x &&& 0x1F) ||| UInt8.ofNat (((n.val : Int) * 32) % 256).toNat) >>> 5 = UInt8.ofNat n.val
    ∧ ((x &&& 0x1F) ||| UInt8.ofNat (((n.val : Int) * 32) % 256).toNat) &&& 0x1F = x &&& 0x1F := by
    apply forall_uint8
    decide +kernel
  exact fun x n => this x n

theorem data_bits (x p : UInt8) :
    ((x &&& 0xE0) ||| (p &&& 0x1F)) >>> 5 = x >>> 5 ∧ ((x &&& 0xE0) ||| (p &&& 0x1F)) &&& 0x1F = p &&& 0x1F := by
  constructor
  · rw [UInt8.shiftRight_or]
    have h1 : (x &&& 0xE0) >>> 5 = x >>> 5 := by revert x; apply forall_uint8; decide +kernel
    have h2 : (p &&& 0x1F) >>> 5 = 0 := by revert p; apply forall_uint8; decide +kernel
    rw [h1, h2]; simp
  · have hd : ∀ a b c : UInt8, (a ||| b) &&& c = (a &&& c) ||| (b &&& c) := by
      intro a b c; apply UInt8.toBitVec_inj.mp
      simp only [UInt8.toBitVec_and, UInt8.toBitVec_or, BitVec.and_or_distrib_right]
    rw [hd]
    have h1 : (x &&& 0xE0) &&& 0x1F = 0 := by revert x; apply forall_uint8; decide +kernel
    have h2 : (p &&& 0x1F) &&& 0x1F = p &&& 0x1F := by revert p; apply forall_uint8; decide +kernel
    rw [h1, h2]; simp

/-- **C25**: setting strategy `n < 8` makes `n` the strategy and leaves the payload and byte 0 alone. -/
theorem C25_set_strategy (h h' : HwId) (n : Nat) (hn : n < 8) (hs : h.setStrategy n = .ok h') :
    h'.strategy = n ∧ h'.d0 = h.d0 ∧ ∀ p, h'.dataMatch p = h.dataMatch p := by
  unfold setStrategy at hs
  rw [if_neg (by omega)] at hs
  injection hs with hs
  obtain ⟨b1, b2⟩ := strategy_bits h.d1 ⟨n, hn⟩
  subst hs
  refine ⟨?_, rfl, ?_⟩
  · simp only [strategy]; rw [b1]; simp; omega
  · intro p; simp only [dataMatch]; rw [b2]

/-- **C25**: the special strategies -1 and -2 are rejected, 0..7 accepted. -/
theorem C25_set_strategy_domain (h : HwId) (n : Nat) (hn : n < 8) :
    (∃ h', h.setStrategy n = .ok h') ∧ h.setStrategy (-1) = .throw .logicError ∧ h.setStrategy (-2) = .throw .logicError := by
  refine ⟨?_, by simp [setStrategy], by simp [setStrategy]⟩
  unfold setStrategy
  rw [if_neg (by omega)]
  exact ⟨_, rfl⟩

/-- **C25**: setting the payload makes it match, keeps strategy and byte 0. -/
theorem C25_set_data (h : HwId) (p : Payload) :
    (h.setData p).dataMatch p = true ∧ (h.setData p).strategy = h.strategy ∧ (h.setData p).d0 = h.d0 := by
  obtain ⟨b1, b2⟩ := data_bits h.d1 p.p0
  refine ⟨?_, ?_, rfl⟩
  · simp only [dataMatch, setData]; rw [b2]; simp
  · simp only [strategy, setData]; rw [b1]

/-- **C25**: the environment-variable flag changes neither strategy nor equality with any identifier. -/
theorem C25_set_env (h k : HwId) (b : Bool) :
    (h.setUseEnvVar b).strategy = h.strategy ∧ (h.setUseEnvVar b).eq k = h.eq k ∧ k.eq (h.setUseEnvVar b) = k.eq h
    ∧ (∀ p, (h.setUseEnvVar b).dataMatch p = h.dataMatch p) := by
  cases b <;> simp [setUseEnvVar, strategy, eq, dataMatch]

example : (⟨64, 64, 1, 2, 3, 4, 5, 6⟩ : HwId).eq ⟨0, 64, 1, 2, 3, 4, 5, 6⟩ = true
    ∧ (⟨0, 64, 1, 2, 3, 4, 5, 6⟩ : HwId).eq ⟨0, 32, 1, 2, 3, 4, 5, 6⟩ = false := by decide

/-- **C25**: `dataMatch` compares the five low bits of the first payload byte and the other six bytes exactly. -/
theorem C25_data_match_iff (h : HwId) (p : Payload) : h.dataMatch p = true ↔
    p.p0.toNat % 32 = h.d1.toNat % 32 ∧ p.p1 = h.d2 ∧ p.p2 = h.d3 ∧ p.p3 = h.d4 ∧ p.p4 = h.d5 ∧ p.p5 = h.d6 ∧ p.p6 = h.d7 := by
  simp only [dataMatch, Bool.and_eq_true, beq_iff_eq]
  have : p.p0 &&& 0x1F = h.d1 &&& 0x1F ↔ p.p0.toNat % 32 = h.d1.toNat % 32 := by
    rw [← UInt8.toNat_inj]
    simp only [UInt8.toNat_and]
    have e : ∀ n : Nat, n &&& (0x1F : UInt8).toNat = n % 32 := fun n => Nat.and_two_pow_sub_one_eq_mod n 5
    rw [e, e]
  rw [this]
  simp [and_assoc]

end HwId

/-! ## Building identifiers -/

/-- The identifier with given strategy bits and payload. -/
def idOf (s : Strategy) (p : Payload) : HwId :=
  ⟨0, (match s with | .ip => 0x20 | .disk => 0x40 | _ => 0) ||| (p.p0 &&& 0x1F), p.p1, p.p2, p.p3, p.p4, p.p5, p.p6⟩

/-- What `mkId` builds: strategy in the top bits of byte 1, payload below. -/
theorem mkId_eq (s : Strategy) (hs : s ≠ .default) (p : Payload) : mkId s.code p = .ok (idOf s p) := by
  have h1 : (32 : UInt8) &&& 224 = 32 := by decide
  have h2 : (64 : UInt8) &&& 224 = 64 := by decide
  cases s
  · exact absurd rfl hs
  all_goals simp [mkId, HwId.setStrategy, Strategy.code, HwId.zero, HwId.setData, idOf, h1, h2]

theorem mapM_ok {α β : Type} (f : α → Outcome β) (g : α → β) (l : List α) (h : ∀ a ∈ l, f a = .ok (g a)) :
    l.mapM f = .ok (l.map g) := by
  induction l with
  | nil => rfl
  | cons a l ih =>
    rw [List.mapM_cons, h a (by simp), ih (fun x hx => h x (by simp [hx]))]
    rfl

theorem mapM_mkId (s : Strategy) (hs : s ≠ .default) (ps : List Payload) :
    ps.mapM (mkId s.code) = .ok (ps.map (idOf s)) :=
  mapM_ok _ _ _ (fun p _ => mkId_eq s hs p)

/-- Payloads available on a machine for a strategy. -/
def payloads (m : Machine) : Strategy → Outcome (FuncRet × List Payload)
  | .ethernet => generateEthernetIds m false
  | .ip => generateEthernetIds m true
  | .disk => generateDiskIds m
  | .default => .ok (.notAvail, [])

theorem alternativeIds_eq (m : Machine) (s : Strategy) (hs : s ≠ .default) :
    alternativeIds m s = (do let (r, ps) ← payloads m s; if r = .ok then pure (ps.map (idOf s)) else pure []) := by
  cases s
  · exact absurd rfl hs
  all_goals
    simp only [alternativeIds, payloads]
    congr 1; funext ⟨r, ps⟩
    split
    · rw [mapM_mkId _ (by simp)]; rfl
    · rfl

theorem mem_ethernet (m : Machine) (useIp : Bool) (ps : List Payload)
    (h : generateEthernetIds m useIp = .ok (.ok, ps)) :
    ∃ as, m.adapters = .ok (.ok, as) ∧ ∀ p, p ∈ ps ↔ ∃ a ∈ as, adapterPayload useIp a = some p := by
  simp only [generateEthernetIds, Outcome.bind_eq_ok] at h
  obtain ⟨⟨r, as⟩, ha, h⟩ := h
  dsimp only at h
  split at h
  · simp at h; rename_i hr; exact absurd h.1 hr
  · split at h
    · simp at h
    · simp at h
      obtain ⟨rfl, rfl⟩ := h
      exact ⟨as, ha, by simp [List.mem_filterMap]⟩

theorem ethernet_ok_of (m : Machine) (useIp : Bool) (as : List Adapter) (h : m.adapters = .ok (.ok, as)) (hne : as ≠ []) :
    generateEthernetIds m useIp = .ok (.ok, as.filterMap (adapterPayload useIp)) := by
  simp [generateEthernetIds, h, hne]

theorem mem_disk (m : Machine) (ps : List Payload) (h : generateDiskIds m = .ok (.ok, ps)) :
    ∃ ds, m.disks = .ok (.ok, ds) ∧ ∀ p, p ∈ ps ↔ ∃ d ∈ ds, p ∈ diskPayloads d := by
  simp only [generateDiskIds, Outcome.bind_eq_ok] at h
  obtain ⟨⟨r, ds⟩, ha, h⟩ := h
  dsimp only at h
  split at h
  · simp at h; rename_i hr; exact absurd h.1 hr
  · rename_i hr
    split at h
    · simp at h
    · simp only [Outcome.pure_eq, Outcome.ok.injEq, Prod.mk.injEq] at h
      obtain ⟨_, rfl⟩ := h
      refine ⟨ds, ?_, ?_⟩
      · have : r = .ok := by simpa using hr
        rw [ha, this]
      · intro p
        simp only [List.mem_append, List.mem_flatMap, List.mem_filter]
        constructor
        · rintro (⟨d, ⟨hd, _⟩, hp⟩ | ⟨d, ⟨hd, _⟩, hp⟩) <;> exact ⟨d, hd, hp⟩
        · rintro ⟨d, hd, hp⟩
          by_cases hpf : d.preferred
          · exact .inl ⟨d, ⟨hd, hpf⟩, hp⟩
          · exact .inr ⟨d, ⟨hd, by simp [hpf]⟩, hp⟩

theorem disk_ok_of (m : Machine) (ds : List Disk) (h : m.disks = .ok (.ok, ds)) (d : Disk) (hd : d ∈ ds) (p : Payload)
    (hp : p ∈ diskPayloads d) : ∃ ps, generateDiskIds m = .ok (.ok, ps) ∧ p ∈ ps := by
  have hne : ds ≠ [] := by rintro rfl; simp at hd
  have hmem : p ∈ (ds.filter (·.preferred)).flatMap diskPayloads ++ (ds.filter (!·.preferred)).flatMap diskPayloads := by
    simp only [List.mem_append, List.mem_flatMap, List.mem_filter]
    by_cases hpf : d.preferred
    · exact .inl ⟨d, ⟨hd, hpf⟩, hp⟩
    · exact .inr ⟨d, ⟨hd, by simp [hpf]⟩, hp⟩
  refine ⟨_, ?_, hmem⟩
  simp only [generateDiskIds, h, Outcome.ok_bind]
  rw [if_neg (by simp), if_neg (by simpa using hne), if_pos (by exact List.length_pos_of_mem hmem)]
  rfl


/-! ## The hardware check -/

theorem diskByte (c d : UInt8) : (0x40 : UInt8) ||| (c &&& 0x1F) = d ↔ d.toNat / 32 = 2 ∧ c.toNat % 32 = d.toNat % 32 := by
  have h : ∀ c : UInt8, ((0x40 : UInt8) ||| (c &&& 0x1F)).toNat = 64 + c.toNat % 32 :=
    forall_uint8 (by decide +kernel)
  rw [← UInt8.toNat_inj, h]
  have := d.toNat_lt
  omega

theorem strategy_eq (h : HwId) : h.strategy = ((h.d1.toNat / 32 : Nat) : Int) := by
  have hh : ∀ c : UInt8, (c >>> 5).toNat = c.toNat / 32 := forall_uint8 (by decide +kernel)
  simp only [HwId.strategy, hh]

theorem idByLabel_eq (d : Disk) (c0 c1 c2 c3 c4 c5 c6 : UInt8) : idByLabel d = ⟨c0, c1, c2, c3, c4, c5, c6⟩ ↔
    (∃ l pad, l = (d.label.takeWhile (· ≠ 0)).take 6 ∧ pad = List.replicate (6 - l.length) 0
      ∧ l ++ pad = [c0, c1, c2, c3, c4, c5] ∧ c6 = 0) := by
  simp only [idByLabel]
  generalize d.label.takeWhile (· ≠ 0) = l
  rcases l with _ | ⟨x0, _ | ⟨x1, _ | ⟨x2, _ | ⟨x3, _ | ⟨x4, _ | ⟨x5, l⟩⟩⟩⟩⟩⟩ <;>
    simp [List.replicate, and_assoc, eq_comm]

/-- Membership in the alternatives of the strategy `s` for an identifier `h`. -/
theorem validate_iff (m : Machine) (s : Strategy) (h : HwId) :
    validateIdentifier m s h = .ok .licenseOk ↔
      s ≠ .default ∧ h.strategy = s.code ∧ ∃ ps p, payloads m s = .ok (.ok, ps) ∧ p ∈ ps ∧ (idOf s p).eq h = true := by
  by_cases hd : s = .default
  · simp [validateIdentifier, hd]
  by_cases hc : h.strategy = s.code
  · simp only [validateIdentifier, hd, hc, if_true, if_false, alternativeIds_eq m s hd, Outcome.bind_eq_ok]
    constructor
    · rintro ⟨ids, ⟨⟨r, ps⟩, hp, hi⟩, h2⟩
      dsimp only at hi
      split at hi
      · rename_i hr
        simp only [Outcome.pure_eq, Outcome.ok.injEq] at hi h2
        subst hi hr
        split at h2
        · rename_i ha
          obtain ⟨x, hx, hx2⟩ := List.any_eq_true.mp ha
          obtain ⟨p, hpm, rfl⟩ := List.mem_map.mp hx
          exact ⟨by simp [hd], trivial, ps, p, hp, hpm, hx2⟩
        · simp at h2
      · simp only [Outcome.pure_eq, Outcome.ok.injEq] at hi h2
        subst hi
        simp at h2
    · rintro ⟨_, _, ps, p, hp, hpm, he⟩
      refine ⟨ps.map (idOf s), ⟨(.ok, ps), hp, by simp⟩, ?_⟩
      simp only [Outcome.pure_eq, Outcome.ok.injEq]
      rw [if_pos]
      exact List.any_eq_true.mpr ⟨_, List.mem_map.mpr ⟨p, hpm, rfl⟩, he⟩
  · simp [validateIdentifier, hd, hc]

theorem hwMatches_of_validate (m : Machine) (s : Strategy) (h : HwId) (hv : validateIdentifier m s h = .ok .licenseOk) :
    Spec.HwMatches m h := by
  obtain ⟨hd, hc, ps, p, hp, hpm, he⟩ := (validate_iff m s h).mp hv
  rw [HwId.C25_eq_iff] at he
  cases s
  · exact absurd rfl hd
  · left
    obtain ⟨as, ha, hmem⟩ := mem_ethernet m false ps hp
    obtain ⟨a, haa, hap⟩ := (hmem p).mp hpm
    obtain ⟨⟨m0, m1, m2, m3, m4, m5⟩, ip⟩ := a
    simp only [adapterPayload, Bool.false_eq_true, if_false] at hap
    split at hap
    · simp at hap
    · rename_i hz
      simp only [Option.some.injEq] at hap
      subst hap
      simp [idOf] at he
      obtain ⟨h1, h2, h3, h4, h5, h6, h7⟩ := he
      refine ⟨h1.symm, as, _, ha, haa, ?_, ?_⟩
      · simp [h2, h3, h4, h5, h6, h7]
      · simpa [and_assoc] using hz
  · right; left
    obtain ⟨as, ha, hmem⟩ := mem_ethernet m true ps hp
    obtain ⟨a, haa, hap⟩ := (hmem p).mp hpm
    obtain ⟨mac, ⟨i0, i1, i2, i3⟩⟩ := a
    simp only [adapterPayload, if_true] at hap
    split at hap
    · simp at hap
    · rename_i hz
      simp only [Option.some.injEq] at hap
      subst hap
      simp [idOf] at he
      obtain ⟨h1, h2, h3, h4, h5, h6, h7⟩ := he
      refine ⟨h1.symm, h6.symm, h7.symm, as, _, ha, haa, ?_, ?_⟩
      · simp [h2, h3, h4, h5]
      · simpa [and_assoc] using hz
  · right; right
    obtain ⟨ds, hds, hmem⟩ := mem_disk m ps hp
    obtain ⟨d, hdd, hdp⟩ := (hmem p).mp hpm
    simp only [idOf] at he
    obtain ⟨h1, h2, h3, h4, h5, h6, h7⟩ := he
    rw [diskByte] at h1
    refine ⟨h1.1, ds, d, hds, hdd, ?_⟩
    simp only [diskPayloads, List.mem_append] at hdp
    rcases hdp with hdp | hdp
    · split at hdp
      · rename_i hi
        simp only [List.mem_singleton] at hdp
        subst hdp
        exact .inl ⟨hi, h1.2, h2, h3, h4, h5, h6, h7⟩
      · simp at hdp
    · split at hdp
      · rename_i hi
        simp only [List.mem_singleton] at hdp
        subst hdp
        right
        refine ⟨hi, ?_⟩
        have := (idByLabel_eq d (idByLabel d).p0 (idByLabel d).p1 (idByLabel d).p2 (idByLabel d).p3 (idByLabel d).p4
          (idByLabel d).p5 (idByLabel d).p6).mp rfl
        obtain ⟨l, pad, e1, e2, e3, e4⟩ := this
        refine ⟨l, pad, e1, e2, (idByLabel d).p0, ?_, h1.2, ?_⟩
        · rw [e3, h2, h3, h4, h5, h6]
        · rw [← h7, e4]
      · simp at hdp

theorem validate_of_hwMatches (m : Machine) (h : HwId) (hm : Spec.HwMatches m h) :
    ∃ s, getStrategy h.strategy = .ok s ∧ validateIdentifier m s h = .ok .licenseOk := by
  rcases hm with ⟨h1, as, a, ha, haa, hmac, hnz⟩ | ⟨h1, h6, h7, as, a, ha, haa, hip, hnz⟩ | ⟨h1, ds, d, hds, hd, hcase⟩
  · refine ⟨.ethernet, by rw [strategy_eq, h1]; rfl, (validate_iff ..).mpr ⟨by simp, by rw [strategy_eq, h1]; rfl, ?_⟩⟩
    have hne : as ≠ [] := by rintro rfl; simp at haa
    refine ⟨_, ⟨0, h.d2, h.d3, h.d4, h.d5, h.d6, h.d7⟩, ethernet_ok_of m false as ha hne, ?_, ?_⟩
    · rw [List.mem_filterMap]
      refine ⟨a, haa, ?_⟩
      obtain ⟨mac, ip⟩ := a
      dsimp only at hmac hnz
      subst hmac
      simp only [adapterPayload, Bool.false_eq_true, if_false]
      rw [if_neg]
      simpa [and_assoc] using hnz
    · rw [HwId.C25_eq_iff]; simp [idOf, h1]
  · refine ⟨.ip, by rw [strategy_eq, h1]; rfl, (validate_iff ..).mpr ⟨by simp, by rw [strategy_eq, h1]; rfl, ?_⟩⟩
    have hne : as ≠ [] := by rintro rfl; simp at haa
    refine ⟨_, ⟨0, h.d2, h.d3, h.d4, h.d5, 42, 42⟩, ethernet_ok_of m true as ha hne, ?_, ?_⟩
    · rw [List.mem_filterMap]
      refine ⟨a, haa, ?_⟩
      obtain ⟨mac, ip⟩ := a
      dsimp only at hip hnz
      subst hip
      simp only [adapterPayload, if_true]
      rw [if_neg]
      simpa [and_assoc] using hnz
    · rw [HwId.C25_eq_iff]; simp [idOf, h1, h6, h7]
  · refine ⟨.disk, by rw [strategy_eq, h1]; rfl, (validate_iff ..).mpr ⟨by simp, by rw [strategy_eq, h1]; rfl, ?_⟩⟩
    rcases hcase with ⟨hi, e0, e1, e2, e3, e4, e5, e6⟩ | ⟨hi, l, pad, hl, hpad, c0, hcat, hc0, h7⟩
    · obtain ⟨ps, hps, hmem⟩ := disk_ok_of m ds hds d hd (idBySn d) (by simp [diskPayloads, hi])
      refine ⟨ps, _, hps, hmem, ?_⟩
      rw [HwId.C25_eq_iff]
      simp only [idOf, diskByte, idBySn]
      exact ⟨⟨h1, e0⟩, e1, e2, e3, e4, e5, e6⟩
    · obtain ⟨ps, hps, hmem⟩ := disk_ok_of m ds hds d hd (idByLabel d) (by simp [diskPayloads, hi])
      refine ⟨ps, _, hps, hmem, ?_⟩
      have := (idByLabel_eq d c0 h.d2 h.d3 h.d4 h.d5 h.d6 0).mpr ⟨l, pad, hl, hpad, hcat, rfl⟩
      rw [HwId.C25_eq_iff, this]
      simp only [idOf, diskByte]
      exact ⟨⟨h1, hc0⟩, trivial, trivial, trivial, trivial, trivial, h7.symm⟩

/-- `validate_pc_signature` answers OK exactly when the text decodes to an identifier that some adapter or disk of the
    machine carries. -/
theorem C27_validate_iff (m : Machine) (code : Bytes) :
    validatePcSignature m code = .ok .licenseOk ↔ ∃ h, HwId.ofString code = .ok h ∧ Spec.HwMatches m h := by
  constructor
  · intro hv
    simp only [validatePcSignature] at hv
    split at hv
    · split at hv <;> simp [logged_ok] at hv
    · rename_i r _
      obtain ⟨h, h1, h2⟩ := Outcome.bind_eq_ok.mp hv
      obtain ⟨s, h3, h4⟩ := Outcome.bind_eq_ok.mp h2
      exact ⟨h, h1, hwMatches_of_validate m s h h4⟩
  · rintro ⟨h, h1, hm⟩
    obtain ⟨s, h3, h4⟩ := validate_of_hwMatches m h hm
    simp [validatePcSignature, h1, h3, h4]


/-- A machine with one network card and one disk, used in the examples. -/
def sampleMachine : Machine where
  adapters := .ok (.ok, [⟨⟨1, 2, 3, 4, 5, 6⟩, ⟨192, 168, 0, 1⟩⟩])
  disks := .ok (.ok, [⟨0, b!"/dev/sda1", ⟨0xE1, 2, 3, 4, 5, 6, 7, 8⟩, true, b!"root" ++ [0], true, true⟩])
  exec := .ok ⟨.none, false, false⟩
  strategyVar := none

example : Spec.HwMatches sampleMachine ⟨0, 0, 1, 2, 3, 4, 5, 6⟩ :=
  .inl ⟨rfl, _, ⟨⟨1, 2, 3, 4, 5, 6⟩, ⟨192, 168, 0, 1⟩⟩, rfl, List.mem_singleton.mpr rfl, rfl, by decide⟩
example : validatePcSignature sampleMachine b!"AAAB-AgME-BQY=" = .ok .licenseOk := by decide +kernel
example : validatePcSignature sampleMachine b!"AAAB-AgME-BQU=" = .ok .identifiersMismatch := by decide +kernel

/-- **C27**: two disks that differ only in the last byte of the serial number or in the top three bits of its first
    byte are accepted for exactly the same identifiers. -/
theorem C27_disk_not_distinguished (m m' : Machine) (d d' : Disk) (h : HwId)
    (hm : m.disks = .ok (.ok, [d])) (hm' : m'.disks = .ok (.ok, [d']))
    (ha : m'.adapters = m.adapters) (hi : d'.snInit = d.snInit) (hl : d'.label = d.label) (hli : d'.labelInit = d.labelInit)
    (h0 : d'.sn.s0.toNat % 32 = d.sn.s0.toNat % 32) (h1 : d'.sn.s1 = d.sn.s1) (h2 : d'.sn.s2 = d.sn.s2)
    (h3 : d'.sn.s3 = d.sn.s3) (h4 : d'.sn.s4 = d.sn.s4) (h5 : d'.sn.s5 = d.sn.s5) (h6 : d'.sn.s6 = d.sn.s6) :
    Spec.HwMatches m' h ↔ Spec.HwMatches m h := by
  simp only [Spec.HwMatches, ha, hm, hm', Outcome.ok.injEq, Prod.mk.injEq, true_and]
  refine or_congr_right (or_congr_right (and_congr_right fun _ => ?_))
  constructor
  · rintro ⟨ds, x, rfl, hx, hh⟩
    simp only [List.mem_singleton] at hx
    subst hx
    exact ⟨_, d, rfl, by simp, by rw [← hi, ← hl, ← hli, ← h0, ← h1, ← h2, ← h3, ← h4, ← h5, ← h6]; exact hh⟩
  · rintro ⟨ds, x, rfl, hx, hh⟩
    simp only [List.mem_singleton] at hx
    subst hx
    exact ⟨_, d', rfl, by simp, by rw [hi, hl, hli, h0, h1, h2, h3, h4, h5, h6]; exact hh⟩

/-- **C27**: the identifier of a card is refused by every machine without a card of that address: on a machine where
    no adapter has this MAC, the text of the ethernet identifier is not accepted. -/
theorem C27_other_mac_refused (m : Machine) (as : List Adapter) (b1 b2 b3 b4 b5 b6 : UInt8) (s : Bytes)
    (hm : m.adapters = .ok (.ok, as)) (hno : ∀ a ∈ as, a.mac ≠ ⟨b1, b2, b3, b4, b5, b6⟩)
    (hs : HwId.print ⟨0, 0, b1, b2, b3, b4, b5, b6⟩ = .ok s) : validatePcSignature m s ≠ .ok .licenseOk := by
  intro hv
  obtain ⟨h, h1, h2⟩ := (C27_validate_iff m s).mp hv
  rw [HwId.C24_round_trip _ s hs] at h1
  cases h1
  rcases h2 with ⟨_, as', a, ha, haa, hmac, _⟩ | ⟨h, _⟩ | ⟨h, _⟩
  · rw [hm] at ha; cases ha; exact hno a haa hmac
  · simp at h
  · simp at h

/-! ## C28 malformed identifiers -/

theorem adapters_throw (m : Machine) (b : Bool) (e : Exn) (h : generateEthernetIds m b = .throw e) : m.adapters = .throw e := by
  simp only [generateEthernetIds, Outcome.bind_eq_throw] at h
  rcases h with h | ⟨⟨r, as⟩, _, h⟩
  · exact h
  · dsimp only at h; split at h
    · simp at h
    · split at h <;> simp at h

theorem disks_throw (m : Machine) (e : Exn) (h : generateDiskIds m = .throw e) : m.disks = .throw e := by
  simp only [generateDiskIds, Outcome.bind_eq_throw] at h
  rcases h with h | ⟨⟨r, as⟩, _, h⟩
  · exact h
  · dsimp only at h; split at h
    · simp at h
    · split at h <;> simp at h

theorem adapters_ub (m : Machine) (b : Bool) : generateEthernetIds m b = .ub ↔ m.adapters = .ub := by
  simp only [generateEthernetIds, Outcome.bind_eq_ub]
  constructor
  · rintro (h | ⟨⟨r, as⟩, _, h⟩)
    · exact h
    · dsimp only at h; split at h
      · simp at h
      · split at h <;> simp at h
  · exact .inl

theorem disks_ub (m : Machine) : generateDiskIds m = .ub ↔ m.disks = .ub := by
  simp only [generateDiskIds, Outcome.bind_eq_ub]
  constructor
  · rintro (h | ⟨⟨r, as⟩, _, h⟩)
    · exact h
    · dsimp only at h; split at h
      · simp at h
      · split at h <;> simp at h
  · exact .inl

theorem payloads_throw (m : Machine) (s : Strategy) (e : Exn) (h : payloads m s = .throw e) :
    m.adapters = .throw e ∨ m.disks = .throw e := by
  cases s
  · simp [payloads] at h
  · exact .inl (adapters_throw m _ e h)
  · exact .inl (adapters_throw m _ e h)
  · exact .inr (disks_throw m e h)

theorem alternativeIds_throw (m : Machine) (s : Strategy) (e : Exn) (h : alternativeIds m s = .throw e) :
    m.adapters = .throw e ∨ m.disks = .throw e := by
  by_cases hd : s = .default
  · subst hd; simp [alternativeIds] at h
  · rw [alternativeIds_eq m s hd, Outcome.bind_eq_throw] at h
    rcases h with h | ⟨⟨r, as⟩, _, h⟩
    · exact payloads_throw m s e h
    · dsimp only at h; split at h <;> simp at h

theorem alternativeIds_ub (m : Machine) (s : Strategy) : alternativeIds m s = .ub ↔ payloads m s = .ub := by
  by_cases hd : s = .default
  · subst hd; simp [alternativeIds, payloads]
  · rw [alternativeIds_eq m s hd, Outcome.bind_eq_ub]
    constructor
    · rintro (h | ⟨⟨r, as⟩, _, h⟩)
      · exact h
      · dsimp only at h; split at h <;> simp at h
    · exact .inl

theorem ofString_throws (code : Bytes) (e : Exn) : HwId.ofString code = .throw e ↔
    e = .lengthError ∧ code.filter (fun c => c ≠ 45 && c ≠ 10) = b!"=="
    ∨ e = .logicError ∧ ∃ out, unbase64 (code.map fun c => if c = 45 then 10 else c) = .ok out ∧ out.length ≠ 8 := by
  have hthrow : ∀ e, unbase64 (code.map fun c => if c = 45 then 10 else c) = .throw e ↔
      e = .lengthError ∧ code.filter (fun c => c ≠ 45 && c ≠ 10) = b!"==" := by
    intro e
    rw [C23_unbase64_throws, and_comm]
    have : (code.map fun c => if c = 45 then 10 else c).filter (fun b => b ≠ 10) = code.filter (fun c => c ≠ 45 && c ≠ 10) := by
      induction code with
      | nil => rfl
      | cons c cs ih =>
        rw [List.map_cons, List.filter_cons, List.filter_cons, ih]
        by_cases h1 : c = 45 <;> by_cases h2 : c = 10 <;> simp_all
    rw [this]
  simp only [HwId.ofString, HwId.replaceByte]
  split
  · rename_i hu
    rw [hu] at hthrow ⊢
    have := fun e h => (hthrow e).mpr h
    simp only [reduceCtorEq, false_iff, Outcome.ok.injEq, exists_eq_left']
    rintro (h | ⟨_, h⟩)
    · exact absurd (this _ h) (by simp)
    · simp at h
  · rename_i l hl hu
    rw [hu] at hthrow ⊢
    have := fun e h => (hthrow e).mpr h
    simp only [Outcome.throw.injEq, Outcome.ok.injEq, exists_eq_left']
    constructor
    · intro h
      refine .inr ⟨h.symm, fun h8 => ?_⟩
      match l, h8 with
      | [a, b, c, d, e, f, g, h], _ => exact hl a b c d e f g h rfl
    · rintro (h | h)
      · exact absurd (this _ h) (by simp)
      · exact h.1.symm
  · rename_i x hu
    rw [hu] at hthrow ⊢
    have := hthrow e
    simp only [Outcome.throw.injEq] at this
    simp [this]
  · rename_i hu
    rw [hu] at hthrow ⊢
    have := hthrow e
    simp only [reduceCtorEq, false_iff] at this
    simp only [reduceCtorEq, false_iff, false_and, exists_false, and_false, or_false]
    exact this

theorem ofString_logicError {code : Bytes} {e : Exn} (h : HwId.ofString code = .throw e) : e.isLogicError = true := by
  rcases (ofString_throws code e).mp h with ⟨rfl, _⟩ | ⟨rfl, _⟩ <;> rfl

theorem ofString_refuses (code : Bytes) : (∃ e : Exn, HwId.ofString code = .throw e) ↔ Spec.NotEightBytes code := by
  unfold Spec.NotEightBytes
  constructor
  · rintro ⟨e, h⟩
    rcases (ofString_throws code e).mp h with ⟨_, h⟩ | ⟨_, h⟩
    · exact .inl h
    · exact .inr h
  · rintro (h | h)
    · exact ⟨_, (ofString_throws code _).mpr (.inl ⟨rfl, h⟩)⟩
    · exact ⟨_, (ofString_throws code _).mpr (.inr ⟨rfl, h⟩)⟩

/-- **C28**: unless a system call throws an exception of another class, no exception escapes. -/
theorem C28_no_exception (m : Machine) (hm : Spec.Machine.NoRuntimeError m) (code : Bytes) (e : Exn) :
    validatePcSignature m code ≠ .throw e := by
  intro h
  simp only [validatePcSignature] at h
  split at h
  · rename_i e' he
    split at h
    · simp [logged_throw] at h
    · rename_i hl
      rcases Outcome.bind_eq_throw.mp he with h1 | ⟨k, hk, h1⟩
      · simp only [HwId.ofString] at h1
        split at h1 <;> simp at h1
        · subst h1; simp [Exn.isLogicError] at hl
        · rename_i hu; subst h1; rw [unbase64_throws hu] at hl; simp [Exn.isLogicError] at hl
      · rcases Outcome.bind_eq_throw.mp h1 with h2 | ⟨s, hs, h2⟩
        · simp only [getStrategy] at h2
          (repeat' split at h2) <;> simp at h2
          subst h2; simp [Exn.isLogicError] at hl
        · simp only [validateIdentifier] at h2
          split at h2
          · simp at h2
          · split at h2
            · rcases Outcome.bind_eq_throw.mp h2 with h3 | ⟨x, _, h3⟩
              · have : e' = .runtimeError := by cases e' <;> simp_all [Exn.isLogicError]
                subst this
                rcases alternativeIds_throw m s _ h3 with h4 | h4
                · exact hm.1 h4
                · exact hm.2 h4
              · simp at h3
            · simp at h2
  · rename_i hne
    exact hne e h

/-- **C28**: the answer is OK or IDENTIFIERS_MISMATCH, nothing else. -/
theorem C28_two_answers (m : Machine) (code : Bytes) (r : EventType) (h : validatePcSignature m code = .ok r) :
    r = .licenseOk ∨ r = .identifiersMismatch := by
  simp only [validatePcSignature] at h
  split at h
  · split at h <;> simp [logged_ok] at h
    exact .inr h.2.symm
  · obtain ⟨k, hk, h1⟩ := Outcome.bind_eq_ok.mp h
    obtain ⟨s, hs, h2⟩ := Outcome.bind_eq_ok.mp h1
    simp only [validateIdentifier] at h2
    split at h2
    · simp at h2; exact .inr h2.symm
    · split at h2
      · obtain ⟨ids, hi, h3⟩ := Outcome.bind_eq_ok.mp h2
        simp only [Outcome.pure_eq, Outcome.ok.injEq] at h3
        split at h3
        · exact .inl h3.symm
        · exact .inr h3.symm
      · simp at h2; exact .inr h2.symm

/-- **C28**: a text that decodes (dashes dropped as line breaks) to anything but eight bytes is refused (the refusal is logged), and so
    is `==`, for which the decoder throws. -/
theorem C28_wrong_size_refused (m : Machine) (hlog : m.logOverruns = false) (code : Bytes) (h : Spec.NotEightBytes code) :
    validatePcSignature m code = .ok .identifiersMismatch := by
  obtain ⟨e, he⟩ := (ofString_refuses code).mpr h
  simp [validatePcSignature, he, ofString_logicError he, logged_eq hlog]

example : Spec.NotEightBytes (b!"=-=") := .inl (by decide)
example : unbase64 (b!"AAAB-AgME" |>.map fun c => if c = 45 then 10 else c) = .ok [0, 0, 1, 2, 3, 4] := by decide +kernel

/-- **C28**: an identifier that names a strategy above disk is refused. -/
theorem C28_unknown_strategy_refused (m : Machine) (hlog : m.logOverruns = false) (code : Bytes) (h : HwId) (ho : HwId.ofString code = .ok h)
    (hs : 3 ≤ h.d1.toNat / 32) : validatePcSignature m code = .ok .identifiersMismatch := by
  have : getStrategy h.strategy = .throw .logicError := by
    rw [strategy_eq]
    simp only [getStrategy]
    rw [if_neg (by omega), if_neg (by omega), if_neg (by omega), if_neg (by omega)]
  simp [validatePcSignature, ho, this, Exn.isLogicError, logged_eq hlog]

example : HwId.ofString b!"AGAB-AgME-BQY=" = .ok ⟨0, 96, 1, 2, 3, 4, 5, 6⟩ := by decide +kernel

theorem adapters_throw_iff (m : Machine) (b : Bool) (e : Exn) : generateEthernetIds m b = .throw e ↔ m.adapters = .throw e :=
  ⟨adapters_throw m b e, fun h => by simp [generateEthernetIds, h]⟩

theorem disks_throw_iff (m : Machine) (e : Exn) : generateDiskIds m = .throw e ↔ m.disks = .throw e :=
  ⟨disks_throw m e, fun h => by simp [generateDiskIds, h]⟩

theorem alternativeIds_throw_iff (m : Machine) (s : Strategy) (e : Exn) : alternativeIds m s = .throw e ↔ payloads m s = .throw e := by
  by_cases hd : s = .default
  · subst hd; simp [alternativeIds, payloads]
  · rw [alternativeIds_eq m s hd, Outcome.bind_eq_throw]
    constructor
    · rintro (h | ⟨⟨r, as⟩, _, h⟩)
      · exact h
      · dsimp only at h; split at h <;> simp at h
    · exact .inl

/-- **C28**: exactly when the check runs into undefined behaviour: decoding the text does; or the machine's adapters
    (strategies 0, 1) or disks (strategy 2) cannot be enumerated safely; or the path of the log file overruns its array (C59) and
    the text is refused with a log entry: it decodes to another number of bytes than eight, it names an unknown strategy, or the
    enumeration throws. -/
theorem C28_ub_iff (m : Machine) (code : Bytes) : validatePcSignature m code = .ub ↔
    unbase64 (code.map fun c => if c = 45 then 10 else c) = .ub
    ∨ (∃ h, HwId.ofString code = .ok h ∧ (h.d1.toNat / 32 = 0 ∧ m.adapters = .ub ∨ h.d1.toNat / 32 = 1 ∧ m.adapters = .ub
        ∨ h.d1.toNat / 32 = 2 ∧ m.disks = .ub))
    ∨ m.logOverruns = true ∧ (Spec.NotEightBytes code
        ∨ ∃ h, HwId.ofString code = .ok h ∧ (3 ≤ h.d1.toNat / 32
          ∨ ∃ e : Exn, e.isLogicError = true ∧ (h.d1.toNat / 32 < 2 ∧ m.adapters = .throw e ∨ h.d1.toNat / 32 = 2 ∧ m.disks = .throw e))) := by
  have hof : HwId.ofString code = .ub ↔ unbase64 (code.map fun c => if c = 45 then 10 else c) = .ub := by
    simp only [HwId.ofString, HwId.replaceByte]
    split <;> simp_all
  have hoft := ofString_refuses code
  have hval : ∀ (s : Strategy) h, s ≠ .default → h.strategy = s.code →
      (validateIdentifier m s h = .ub ↔ payloads m s = .ub) := by
    intro s h hd hc
    simp only [validateIdentifier, hd, hc, if_true, if_false, Outcome.bind_eq_ub, alternativeIds_ub]
    constructor
    · rintro (h | ⟨x, _, h⟩)
      · exact h
      · simp at h
    · exact .inl
  have hvalt : ∀ (s : Strategy) h e, s ≠ .default → h.strategy = s.code →
      (validateIdentifier m s h = .throw e ↔ payloads m s = .throw e) := by
    intro s h e hd hc
    simp only [validateIdentifier, hd, hc, if_true, if_false, Outcome.bind_eq_throw, alternativeIds_throw_iff]
    constructor
    · rintro (h | ⟨x, _, h⟩)
      · exact h
      · simp at h
    · exact .inl
  have key : ∀ h : HwId, (((do let s ← getStrategy h.strategy; validateIdentifier m s h) : Outcome EventType) = .ub ↔
      (h.d1.toNat / 32 = 0 ∧ m.adapters = .ub ∨ h.d1.toNat / 32 = 1 ∧ m.adapters = .ub
        ∨ h.d1.toNat / 32 = 2 ∧ m.disks = .ub))
      ∧ ((∃ e : Exn, e.isLogicError = true ∧ ((do let s ← getStrategy h.strategy; validateIdentifier m s h) : Outcome EventType) = .throw e) ↔
        (3 ≤ h.d1.toNat / 32
          ∨ ∃ e : Exn, e.isLogicError = true ∧ (h.d1.toNat / 32 < 2 ∧ m.adapters = .throw e ∨ h.d1.toNat / 32 = 2 ∧ m.disks = .throw e))) := by
    intro h
    have hst := strategy_eq h
    generalize hn : h.d1.toNat / 32 = n at hst
    match n with
    | 0 =>
      rw [hst]
      simp [getStrategy, hval .ethernet h (by simp) hst, hvalt .ethernet h _ (by simp) hst, payloads, adapters_ub, adapters_throw_iff]
    | 1 =>
      rw [hst]
      simp [getStrategy, hval .ip h (by simp) hst, hvalt .ip h _ (by simp) hst, payloads, adapters_ub, adapters_throw_iff]
    | 2 =>
      rw [hst]
      simp [getStrategy, hval .disk h (by simp) hst, hvalt .disk h _ (by simp) hst, payloads, disks_ub, disks_throw_iff]
    | n + 3 =>
      have : getStrategy h.strategy = .throw .logicError := by
        rw [hst]; simp only [getStrategy]
        rw [if_neg (by omega), if_neg (by omega), if_neg (by omega), if_neg (by omega)]
      rw [this]
      refine ⟨by simp, ⟨fun _ => .inl (by omega), fun _ => ⟨.logicError, rfl, rfl⟩⟩⟩
  have hsplit : validatePcSignature m code = .ub ↔
      ((do let h ← HwId.ofString code; let s ← getStrategy h.strategy; validateIdentifier m s h) : Outcome EventType) = .ub
      ∨ m.logOverruns = true ∧ ∃ e : Exn, e.isLogicError = true ∧
        ((do let h ← HwId.ofString code; let s ← getStrategy h.strategy; validateIdentifier m s h) : Outcome EventType) = .throw e := by
    simp only [validatePcSignature]
    split
    · rename_i e he
      rw [he]
      cases hl : e.isLogicError with
      | false => simp [hl]
      | true => simp [hl, logged_ub]
    · rename_i hne
      constructor
      · exact .inl
      · rintro (h | ⟨_, e, _, h⟩)
        · exact h
        · exact absurd h (hne e)
  rw [hsplit, Outcome.bind_eq_ub, hof, or_assoc]
  refine or_congr_right (or_congr ?_ (and_congr_right fun _ => ?_))
  · constructor
    · rintro ⟨h, h1, h2⟩; exact ⟨h, h1, (key h).1.mp h2⟩
    · rintro ⟨h, h1, h2⟩; exact ⟨h, h1, (key h).1.mpr h2⟩
  · constructor
    · rintro ⟨e, hl, he⟩
      rcases Outcome.bind_eq_throw.mp he with h1 | ⟨h, h1, h2⟩
      · exact .inl (hoft.mp ⟨e, h1⟩)
      · exact .inr ⟨h, h1, (key h).2.mp ⟨e, hl, h2⟩⟩
    · rintro (h | ⟨h, h1, h2⟩)
      · obtain ⟨e, he⟩ := hoft.mpr h
        exact ⟨e, ofString_logicError he, Outcome.bind_eq_throw.mpr (.inl he)⟩
      · obtain ⟨e, hl, h3⟩ := (key h).2.mpr h2
        exact ⟨e, hl, Outcome.bind_eq_throw.mpr (.inr ⟨h, h1, h3⟩)⟩

/-- **C28**: exactly which exceptions leave the check: those that enumerating the adapters (strategies 0, 1) or the disks
    (strategy 2) throws, except logic errors. -/
theorem C28_throw_iff (m : Machine) (code : Bytes) (e : Exn) : validatePcSignature m code = .throw e ↔
    e.isLogicError = false ∧ ∃ h, HwId.ofString code = .ok h
      ∧ (h.d1.toNat / 32 < 2 ∧ m.adapters = .throw e ∨ h.d1.toNat / 32 = 2 ∧ m.disks = .throw e) := by
  have hsplit : validatePcSignature m code = .throw e ↔ e.isLogicError = false ∧
      ((do let h ← HwId.ofString code; let s ← getStrategy h.strategy; validateIdentifier m s h) : Outcome EventType) = .throw e := by
    simp only [validatePcSignature]
    split
    · rename_i e' he
      rw [he]
      cases hl : e'.isLogicError with
      | false =>
        simp only [Bool.false_eq_true, if_false, Outcome.throw.injEq]
        constructor
        · rintro rfl; exact ⟨hl, rfl⟩
        · exact fun h => h.2
      | true =>
        simp only [if_true, logged_throw, Outcome.throw.injEq]
        constructor
        · intro h; simp at h
        · rintro ⟨h, rfl⟩; rw [hl] at h; simp at h
    · rename_i hne
      constructor
      · intro h; exact absurd h (hne e)
      · intro h; exact h.2
  have hoft : ∀ e, HwId.ofString code = .throw e → e.isLogicError = true := fun _ h => ofString_logicError h
  have hvalt : ∀ (s : Strategy) h, s ≠ .default → h.strategy = s.code →
      (validateIdentifier m s h = .throw e ↔ payloads m s = .throw e) := by
    intro s h hd hc
    simp only [validateIdentifier, hd, hc, if_true, if_false, Outcome.bind_eq_throw, alternativeIds_throw_iff]
    constructor
    · rintro (h | ⟨x, _, h⟩)
      · exact h
      · simp at h
    · exact .inl
  have key : ∀ h : HwId, e.isLogicError = false →
      (((do let s ← getStrategy h.strategy; validateIdentifier m s h) : Outcome EventType) = .throw e ↔
        (h.d1.toNat / 32 < 2 ∧ m.adapters = .throw e ∨ h.d1.toNat / 32 = 2 ∧ m.disks = .throw e)) := by
    intro h hl
    have hst := strategy_eq h
    generalize hn : h.d1.toNat / 32 = n at hst
    match n with
    | 0 => rw [hst]; simp [getStrategy, hvalt .ethernet h (by simp) hst, payloads, adapters_throw_iff]
    | 1 => rw [hst]; simp [getStrategy, hvalt .ip h (by simp) hst, payloads, adapters_throw_iff]
    | 2 => rw [hst]; simp [getStrategy, hvalt .disk h (by simp) hst, payloads, disks_throw_iff]
    | n + 3 =>
      have : getStrategy h.strategy = .throw .logicError := by
        rw [hst]; simp only [getStrategy]
        rw [if_neg (by omega), if_neg (by omega), if_neg (by omega), if_neg (by omega)]
      rw [this]
      constructor
      · intro h; simp at h; subst h; simp [Exn.isLogicError] at hl
      · rintro (⟨h, _⟩ | ⟨h, _⟩) <;> omega
  rw [hsplit]
  refine and_congr_right fun hl => ?_
  rw [Outcome.bind_eq_throw]
  constructor
  · rintro (h1 | ⟨h, h1, h2⟩)
    · rw [hoft e h1] at hl; simp at hl
    · exact ⟨h, h1, (key h hl).mp h2⟩
  · rintro ⟨h, h1, h2⟩
    exact .inr ⟨h, h1, (key h hl).mpr h2⟩

/-- **C28** (negation of full memory safety): the identifier text `QUI=` makes the decoder read out of bounds. -/
theorem C28_short_text_is_ub (m : Machine) : validatePcSignature m b!"QUI=" = .ub :=
  (C28_ub_iff m _).mpr (.inl (by decide))

/-! ## C26 generated identifiers validate -/

theorem hwMatches_idOf (m : Machine) (s : Strategy) (hs : s ≠ .default) (ps : List Payload) (p : Payload)
    (h1 : payloads m s = .ok (.ok, ps)) (h2 : p ∈ ps) : Spec.HwMatches m (idOf s p) := by
  have hstr : (idOf s p).strategy = s.code := by
    rw [strategy_eq]
    have hb : ∀ c : UInt8, ((0 : UInt8) ||| (c &&& 0x1F)).toNat / 32 = 0 ∧ ((0x20 : UInt8) ||| (c &&& 0x1F)).toNat / 32 = 1
      ∧ ((0x40 : UInt8) ||| (c &&& 0x1F)).toNat / 32 = 2 := forall_uint8 (by decide +kernel)
    cases s
    · exact absurd rfl hs
    · simp only [idOf, (hb p.p0).1]; rfl
    · simp only [idOf, (hb p.p0).2.1]; rfl
    · simp only [idOf, (hb p.p0).2.2]; rfl
  exact hwMatches_of_validate m s _ ((validate_iff ..).mpr ⟨hs, hstr, ps, p, h1, h2, by rw [HwId.C25_eq_iff]; simp⟩)

theorem generateFirst_some (m : Machine) (s : Strategy) (h : HwId) (hg : generateFirst m s = .ok (some h)) :
    Spec.HwMatches m h := by
  obtain ⟨ids, h1, h2⟩ := Outcome.bind_eq_ok.mp hg
  simp only [Outcome.pure_eq, Outcome.ok.injEq] at h2
  by_cases hd : s = .default
  · subst hd; simp [alternativeIds] at h1; subst h1; simp at h2
  · rw [alternativeIds_eq m s hd, Outcome.bind_eq_ok] at h1
    obtain ⟨⟨r, ps⟩, hp, hi⟩ := h1
    dsimp only at hi
    split at hi
    · rename_i hr
      simp only [Outcome.pure_eq, Outcome.ok.injEq] at hi
      subst hi hr
      obtain ⟨p, hpm, rfl⟩ := List.mem_map.mp (List.mem_of_head? h2)
      exact hwMatches_idOf m s hd ps p hp hpm
    · simp only [Outcome.pure_eq, Outcome.ok.injEq] at hi; subst hi; simp at h2

theorem tryStrategies_some (m : Machine) (l : List Int) (h : HwId) (hg : tryStrategies m l = .ok (some h)) :
    Spec.HwMatches m h := by
  induction l with
  | nil => simp [tryStrategies] at hg
  | cons n ns ih =>
    simp only [tryStrategies] at hg
    obtain ⟨s, _, hg⟩ := Outcome.bind_eq_ok.mp hg
    obtain ⟨o, ho, hg⟩ := Outcome.bind_eq_ok.mp hg
    cases o with
    | none => exact ih hg
    | some k => simp at hg; subst hg; exact generateFirst_some m s k ho

theorem generatePcId_some (m : Machine) (s : Strategy) (h : HwId) (hg : generatePcId m s = .ok (some h)) :
    Spec.HwMatches m h := by
  cases s with
  | default =>
    simp only [generatePcId] at hg
    obtain ⟨e, _, hg⟩ := Outcome.bind_eq_ok.mp hg
    exact tryStrategies_some m _ h hg
  | ethernet => exact generateFirst_some m _ h hg
  | ip => exact generateFirst_some m _ h hg
  | disk => exact generateFirst_some m _ h hg

theorem hwMatches_extends (m m' : Machine) (he : Spec.Extends m m') (h : HwId) (hm : Spec.HwMatches m h) :
    Spec.HwMatches m' h := by
  rcases hm with ⟨h1, as, a, ha, haa, hh⟩ | ⟨h1, h6, h7, as, a, ha, haa, hh⟩ | ⟨h1, ds, d, hds, hd, hh⟩
  · obtain ⟨as', ha', hs⟩ := he.adapters as ha
    exact .inl ⟨h1, as', a, ha', hs a haa, hh⟩
  · obtain ⟨as', ha', hs⟩ := he.adapters as ha
    exact .inr (.inl ⟨h1, h6, h7, as', a, ha', hs a haa, hh⟩)
  · obtain ⟨ds', hd', hs⟩ := he.disks ds hds
    obtain ⟨k1, k2⟩ := hs d hd
    rcases hh with ⟨hi, hh⟩ | ⟨hi, hh⟩
    · obtain ⟨d', hdm, e1, e2⟩ := k1 hi
      exact .inr (.inr ⟨h1, ds', d', hd', hdm, .inl ⟨e1, by rw [e2]; exact hh⟩⟩)
    · obtain ⟨d', hdm, e1, e2⟩ := k2 hi
      exact .inr (.inr ⟨h1, ds', d', hd', hdm, .inr ⟨e1, by rw [e2]; exact hh⟩⟩)

theorem generateUser_some (m : Machine) (n : Int) (s : Bytes) (hg : generateUserPcSignature m n = .ok s) :
    ∃ h, Spec.HwMatches m h ∧ h.print = .ok s := by
  simp only [generateUserPcSignature] at hg
  obtain ⟨_, _, hg⟩ := Outcome.bind_eq_ok.mp hg
  obtain ⟨st, _, hg⟩ := Outcome.bind_eq_ok.mp hg
  obtain ⟨o, ho, hg⟩ := Outcome.bind_eq_ok.mp hg
  cases o with
  | none => simp at hg
  | some h =>
    dsimp only at hg
    refine ⟨_, ?_, hg⟩
    have := generatePcId_some m st h ho
    cases (selectStrategy m.strategyVar n).2 <;> simpa [HwId.setUseEnvVar, Spec.HwMatches] using this

/-- **C26**: whatever the strategy argument and the environment variable, an identifier that was generated is accepted
    on every machine that still has all the adapters and disks (reordered, or with others added). -/
theorem C26_generated_identifier_validates (m m' : Machine) (he : Spec.Extends m m') (strategy : Int) (s : Bytes)
    (hg : generateUserPcSignature m strategy = .ok s) : validatePcSignature m' s = .ok .licenseOk := by
  obtain ⟨h, hm, hp⟩ := generateUser_some m strategy s hg
  exact (C27_validate_iff m' s).mpr ⟨h, HwId.C24_round_trip h s hp, hwMatches_extends m m' he h hm⟩

theorem Spec.Extends.refl (m : Machine) : Spec.Extends m m :=
  ⟨fun as h => ⟨as, h, fun _ ha => ha⟩, fun ds h => ⟨ds, h, fun d hd => ⟨fun h => ⟨d, hd, h, rfl⟩, fun h => ⟨d, hd, h, rfl⟩⟩⟩⟩

/-- **C26**: in particular on the same machine, also if the environment variable has changed since. -/
theorem C26_same_machine (m : Machine) (v : Option Bytes) (strategy : Int) (s : Bytes)
    (hg : generateUserPcSignature m strategy = .ok s) : validatePcSignature { m with strategyVar := v } s = .ok .licenseOk :=
  C26_generated_identifier_validates m _ ⟨fun as h => ⟨as, h, fun _ ha => ha⟩,
    fun ds h => ⟨ds, h, fun d hd => ⟨fun h => ⟨d, hd, h, rfl⟩, fun h => ⟨d, hd, h, rfl⟩⟩⟩⟩ strategy s hg

example : generateUserPcSignature sampleMachine (-1) = .ok b!"AEEC-AwQF-Bgc=" := by decide +kernel
example : generateUserPcSignature { sampleMachine with strategyVar := some b!"1" } (-1) = .ok b!"QCDA-qAAB-Kio=" := by
  decide +kernel

/-- **C26**: adapters in any order: a permutation of the adapters and disks still accepts. -/
theorem C26_reordered (m : Machine) (as as' : List Adapter) (ds ds' : List Disk) (hp : as.Perm as') (hq : ds.Perm ds')
    (ha : m.adapters = .ok (.ok, as)) (hd : m.disks = .ok (.ok, ds)) (strategy : Int) (s : Bytes)
    (hg : generateUserPcSignature m strategy = .ok s) :
    validatePcSignature { m with adapters := .ok (.ok, as'), disks := .ok (.ok, ds') } s = .ok .licenseOk := by
  refine C26_generated_identifier_validates m _ ⟨?_, ?_⟩ strategy s hg
  · intro x hx; rw [ha] at hx; cases hx; exact ⟨as', rfl, fun a h => hp.mem_iff.mp h⟩
  · intro x hx; rw [hd] at hx; cases hx
    exact ⟨ds', rfl, fun d h => ⟨fun k => ⟨d, hq.mem_iff.mp h, k, rfl⟩, fun k => ⟨d, hq.mem_iff.mp h, k, rfl⟩⟩⟩

/-- In a Docker container or in a cloud VM the default strategy never produces an identifier. -/
theorem default_strategy_fails_in_docker_and_cloud (m : Machine) (e : ExecSummary) (hm : m.exec = .ok e)
    (hv : m.strategyVar = none)
    (h : e.virtualization = .container ∧ e.isDocker = true ∨ e.virtualization = .vm ∧ e.isCloud = true) :
    generateUserPcSignature m (-1) = .throw .logicError := by
  have : availableStrategies e = [-2] := by
    rcases h with ⟨h1, h2⟩ | ⟨h1, h2⟩ <;> simp [availableStrategies, h1, h2]
  simp [generateUserPcSignature, Machine.warnUnknown, strategyUnknown, selectStrategy, hv, getStrategy, generatePcId, hm, this, tryStrategies]

/-! ## C29 the buffer contract of identify_pc -/

theorem print_length (h : HwId) : ∃ s, h.print = .ok s ∧ s.length = 14 ∧ 0 ∉ s := by
  obtain ⟨e0, e1, e2, e3, e4, e5, e6, e7, e8, e9, e10, _, hm, hp⟩ := HwId.print_eq h
  have nz : ∀ i, i < 64 → b64Char i ≠ 0 := by decide +kernel
  refine ⟨_, hp, rfl, ?_⟩
  simp only [List.mem_cons, List.not_mem_nil, or_false, forall_eq_or_imp, forall_eq] at hm
  simp only [List.mem_cons, List.not_mem_nil, or_false, not_or]
  have f : ∀ e, (∃ i, i < 64 ∧ e = b64Char i) → ¬ (0 : UInt8) = e := by
    rintro e ⟨i, hi, rfl⟩ h; exact nz i hi h.symm
  obtain ⟨a0, a1, a2, a3, a4, a5, a6, a7, a8, a9, a10⟩ := hm
  exact ⟨f _ a0, f _ a1, f _ a2, f _ a3, by decide, f _ a4, f _ a5, f _ a6, f _ a7, by decide, f _ a8, f _ a9, f _ a10, by decide⟩

/-- **C29**: a null buffer, or one of at most 19 bytes, is refused: the needed size 20 is stored and nothing else is
    written. -/
theorem C29_small_buffer (m : Machine) (strategy : Int) (buf : Option Bytes) (n : Nat) (h : buf = none ∨ n ≤ 19) :
    identifyPc m strategy buf n = .ok ⟨false, 20, buf⟩ := by
  rcases h with rfl | h
  · rfl
  · cases buf with
    | none => rfl
    | some mem => simp only [identifyPc]; rw [if_neg (by omega)]

/-- **C29**: with a buffer of `n > 19` bytes the result is undefined only if generating the identifier is, or if it fails and logging
    that overruns the array for the path of the log file (C59); otherwise
    either false with the buffer unchanged, or true with the 14 characters of an identifier that this machine accepts, a
    terminator, and every later byte unchanged.  No exception escapes in any case. -/
theorem C29_large_buffer (m : Machine) (strategy : Int) (mem : Bytes) (n : Nat) (hn : 19 < n) (hmem : n ≤ mem.length) :
    (identifyPc m strategy (some mem) n = .ub ∧ (generateUserPcSignature m strategy = .ub
        ∨ m.logOverruns = true ∧ ∃ e, generateUserPcSignature m strategy = .throw e))
    ∨ identifyPc m strategy (some mem) n = .ok ⟨false, n, some mem⟩
    ∨ ∃ id, identifyPc m strategy (some mem) n = .ok ⟨true, n, some (id ++ 0 :: mem.drop 15)⟩
        ∧ id.length = 14 ∧ 0 ∉ id ∧ validatePcSignature m id = .ok .licenseOk := by
  simp only [identifyPc]
  rw [if_pos (by omega)]
  cases hg : generateUserPcSignature m strategy with
  | ub => simp
  | throw e => cases hl : m.logOverruns <;> simp [Machine.logged, hl]
  | ok id =>
    right; right
    obtain ⟨h, _, hp⟩ := generateUser_some m strategy id hg
    obtain ⟨s, hs, hlen, h0⟩ := print_length h
    rw [hp] at hs; cases hs
    refine ⟨id, ?_, hlen, h0, C26_generated_identifier_validates m m (Spec.Extends.refl m) strategy id hg⟩
    dsimp only
    rw [C37_mstrlcpy mem id [] n h0 (by omega) hmem]
    dsimp only
    rw [hlen, List.take_of_length_le (by omega), Nat.min_eq_left (by omega)]

theorem C29_no_exception (m : Machine) (strategy : Int) (buf : Option Bytes) (n : Nat) (e : Exn)
    (hbuf : ∀ mem, buf = some mem → n ≤ mem.length) : identifyPc m strategy buf n ≠ .throw e := by
  cases buf with
  | none => simp [identifyPc]
  | some mem =>
    by_cases hn : 19 < n
    · rcases C29_large_buffer m strategy mem n hn (hbuf mem rfl) with ⟨h, _⟩ | h | ⟨id, h, _⟩ <;> simp [h]
    · rw [C29_small_buffer m strategy _ n (.inr (by omega))]; simp

example : identifyPc sampleMachine 0 (some (List.replicate 24 7)) 24
    = .ok ⟨true, 24, some (b!"AAAB-AgME-BQY=" ++ [0, 7, 7, 7, 7, 7, 7, 7, 7, 7])⟩ := by decide +kernel

end Licensecc
