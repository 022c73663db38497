import Verif.Spec.Issued
import Verif.Props.Signing
import Verif.Props.Exceptions
/-!
# C56: a licence that was issued for this machine and this time is accepted
-/
namespace Licensecc
open Licensecc.Spec

/-! ## The text is read back -/

theorem white_iff (c : UInt8) : isSpace c = true ↔ c ∈ ([32, 9, 10, 11, 12, 13] : Bytes) := by
  revert c
  exact forall_uint8 (P := fun c => isSpace c = true ↔ c ∈ ([32, 9, 10, 11, 12, 13] : Bytes)) (by decide +kernel)

theorem Spec.PlainText.trimmed {s : Bytes} (h : PlainText s) : trimCopy s = s := by
  apply trimCopy_eq_self
  · intro b hb
    have := h.head b hb
    rw [← white_iff] at this; simpa using this
  · intro b hb
    have h1 := h.last b hb
    have h2 := (h.oneLine b (List.mem_of_getLast? hb)).2.2
    rw [← white_iff] at h1
    simp [h2]; simpa using h1

theorem Spec.PlainText.clean {s : Bytes} (h : PlainText s) : OneLine s ∧ Trimmed s := by
  refine ⟨h.oneLine, ?_, ?_⟩
  · intro c hc
    have := h.head c hc
    constructor <;> rintro rfl <;> simp at this
  · intro c hc
    have := h.last c hc
    constructor <;> rintro rfl <;> simp at this

theorem Spec.PlainKey.cleanKey {k : Bytes} (h : PlainKey k) : Ini.CleanKey k :=
  ⟨h.toPlainText.clean.1, h.toPlainText.clean.2, h.noEquals, h.starts⟩

theorem upper_keeps (c : UInt8) : (toUpperByte c = 10 → c = 10) ∧ (toUpperByte c = 13 → c = 13) ∧ (toUpperByte c = 0 → c = 0)
    ∧ (toUpperByte c = 93 → c = 93) ∧ (toUpperByte c = 32 → c = 32) ∧ (toUpperByte c = 9 → c = 9) := by
  revert c
  exact forall_uint8 (P := fun c => (toUpperByte c = 10 → c = 10) ∧ (toUpperByte c = 13 → c = 13) ∧ (toUpperByte c = 0 → c = 0)
    ∧ (toUpperByte c = 93 → c = 93) ∧ (toUpperByte c = 32 → c = 32) ∧ (toUpperByte c = 9 → c = 9)) (by decide +kernel)

theorem section_clean {f : Bytes} (h : PlainText f) (hb : 93 ∉ f) : Ini.CleanSection (toUpperCopy f) := by
  obtain ⟨h1, h2, h3⟩ := h.clean
  unfold toUpperCopy
  refine ⟨?_, ⟨?_, ?_⟩, ?_⟩
  · intro c hc
    obtain ⟨b, hb, rfl⟩ := List.mem_map.mp hc
    obtain ⟨a1, a2, a3⟩ := h1 b hb
    obtain ⟨u1, u2, u3, _⟩ := upper_keeps b
    exact ⟨fun h => a1 (u1 h), fun h => a2 (u2 h), fun h => a3 (u3 h)⟩
  · intro c hc
    rw [List.head?_map, Option.map_eq_some_iff] at hc
    obtain ⟨b, hb, rfl⟩ := hc
    obtain ⟨_, _, _, _, u1, u2⟩ := upper_keeps b
    exact ⟨fun h => (h2 b hb).1 (u1 h), fun h => (h2 b hb).2 (u2 h)⟩
  · intro c hc
    rw [List.getLast?_map, Option.map_eq_some_iff] at hc
    obtain ⟨b, hb, rfl⟩ := hc
    obtain ⟨_, _, _, _, u1, u2⟩ := upper_keeps b
    exact ⟨fun h => (h3 b hb).1 (u1 h), fun h => (h3 b hb).2 (u2 h)⟩
  · intro hc
    obtain ⟨b, hb', hu⟩ := List.mem_map.mp hc
    obtain ⟨_, _, _, u, _⟩ := upper_keeps b
    exact hb (u hu ▸ hb')

theorem issuedText_eq (f : Bytes) (kvs : List (Bytes × Bytes)) (s : Bytes) :
    issuedText f kvs s = Ini.writeLicense (toUpperCopy f) ((b!"lic_ver", b!"200") :: kvs ++ [(b!"sig", s)]) := by
  unfold issuedText Ini.writeLicense
  simp [List.flatMap_append, List.append_assoc]

/-- What is read from an issued licence: the version, the limits, the signature. -/
theorem issued_entries {f : Bytes} {kvs : List (Bytes × Bytes)} {s : Bytes} (hf : PlainText f ∧ 93 ∉ f)
    (hk : ∀ e ∈ kvs, PlainKey e.1 ∧ PlainText e.2) (hs : PlainText s) :
    entriesFor f (issuedText f kvs s) = (b!"lic_ver", b!"200") :: kvs ++ [(b!"sig", s)] := by
  unfold entriesFor
  rw [issuedText_eq]
  apply Ini.C17_entries (section_clean hf.1 hf.2)
  intro e he
  simp only [List.cons_append, List.mem_cons, List.mem_append, List.not_mem_nil, or_false] at he
  rcases he with rfl | he | rfl
  · refine ⟨⟨?_, ?_, ?_, ?_⟩, ?_, ?_⟩
    · unfold OneLine; decide
    · unfold Trimmed; decide
    · decide
    · exact ⟨_, _, rfl, by decide, by decide, by decide⟩
    · unfold OneLine; decide
    · unfold Trimmed; decide
  · exact ⟨(hk e he).1.cleanKey, (hk e he).2.clean⟩
  · refine ⟨?_, hs.clean⟩
    change Ini.CleanKey (b!"sig")
    refine ⟨?_, ?_, ?_, ?_⟩
    · unfold OneLine; decide
    · unfold Trimmed; decide
    · decide
    · exact ⟨_, _, rfl, by decide, by decide, by decide⟩

theorem sameCI_symm {a b : Bytes} (h : SameCI a b) : SameCI b a := by
  rw [← Ini.sameName_iff] at *; rw [Ini.sameName_comm]; exact h

theorem issued_distinct {kvs : List (Bytes × Bytes)} {s : Bytes}
    (h : (b!"lic_ver" :: b!"sig" :: kvs.map (·.1)).Pairwise (fun a b => ¬ SameCI a b)) :
    (((b!"lic_ver", b!"200") :: kvs ++ [(b!"sig", s)]).map (·.1)).Pairwise (fun a b => ¬ SameCI a b) := by
  simp only [List.pairwise_cons, List.mem_cons] at h
  obtain ⟨h1, h2, h3⟩ := h
  simp only [List.cons_append, List.map_cons, List.map_append, List.map_nil, List.pairwise_cons, List.pairwise_append,
    List.mem_append, List.mem_singleton, List.mem_cons, List.not_mem_nil, or_false]
  refine ⟨?_, h3, by simp, ?_⟩
  · rintro a (ha | rfl)
    · exact h1 a (.inr ha)
    · exact h1 _ (.inl rfl)
  · rintro a ha b rfl hs
    exact h2 a ha (sameCI_symm hs)

/-- The limits of an issued licence. -/
theorem issued_limits {w : World} {f text : Bytes} {kvs : List (Bytes × Bytes)} (h : Issued w f kvs text) :
    ∃ s data, lastValue (b!"sig") (entriesFor f text) = some s ∧ SigningData f (entriesFor f text) data
      ∧ w.verify data s = .ok true
      ∧ (∀ k v, IsLimit (entriesFor f text) k v ↔ (k, v) ∈ kvs ∨ (k = b!"lic_ver" ∧ v = b!"200") ∨ (k = b!"sig" ∧ v = s)) := by
  obtain ⟨s, data, hs, rfl, ⟨sorted, hperm, hsorted, rfl⟩, hver⟩ := h.signed
  have he := issued_entries h.plainFeature h.plainLimits hs
  have hd := issued_distinct (s := s) h.distinct
  have hlim : ∀ k v, IsLimit (entriesFor f (issuedText f kvs s)) k v ↔
      (k, v) ∈ kvs ∨ (k = b!"lic_ver" ∧ v = b!"200") ∨ (k = b!"sig" ∧ v = s) := by
    intro k v
    rw [he, isLimit_distinct hd]
    simp only [List.cons_append, List.mem_cons, List.mem_append, List.not_mem_nil, or_false, Prod.mk.injEq]
    grind
  have hnosig : ∀ v, (b!"sig", v) ∉ kvs := by
    intro v hv
    have := h.distinct
    simp only [List.pairwise_cons] at this
    exact this.2.1 (b!"sig") (List.mem_map.mpr ⟨_, hv, rfl⟩) (sameCI_refl _)
  refine ⟨s, _, ((hlim _ _).mpr (.inr (.inr ⟨rfl, rfl⟩))).2, ⟨sorted, hsorted, ?_, ?_⟩, hver, hlim⟩
  · intro k v
    rw [hlim, hperm.mem_iff]
    simp only [List.mem_cons, Prod.mk.injEq]
    constructor
    · rintro (⟨rfl, rfl⟩ | hv)
      · exact ⟨.inr (.inl ⟨rfl, rfl⟩), by decide⟩
      · exact ⟨.inl hv, by rintro rfl; exact hnosig _ hv⟩
    · rintro ⟨hv | hv | ⟨rfl, _⟩, hne⟩
      · exact .inr hv
      · exact .inl hv
      · exact absurd rfl hne
  · rw [h.plainFeature.1.trimmed]
    congr 1
    have htrim : ∀ e ∈ sorted, trimCopy e.1 ++ trimCopy e.2 = e.1 ++ e.2 := by
      intro e hm
      rw [hperm.mem_iff] at hm
      rcases List.mem_cons.mp hm with rfl | hm
      · decide
      · rw [(h.plainLimits e hm).1.toPlainText.trimmed, (h.plainLimits e hm).2.trimmed]
    clear hperm hsorted hver
    induction sorted with
    | nil => rfl
    | cons a l ih =>
      rw [List.flatMap_cons, List.flatMap_cons, ih (fun e he => htrim e (by simp [he])), htrim a (by simp)]

theorem issued_limit {w : World} {f text : Bytes} {kvs : List (Bytes × Bytes)} (h : Issued w f kvs text) {k v : Bytes}
    (h1 : k ≠ b!"lic_ver") (h2 : k ≠ b!"sig") : IsLimit (entriesFor f text) k v ↔ (k, v) ∈ kvs := by
  obtain ⟨s, data, _, _, _, hlim⟩ := issued_limits h
  rw [hlim]
  constructor
  · rintro (h | ⟨h, _⟩ | ⟨h, _⟩)
    · exact h
    · exact absurd h h1
    · exact absurd h h2
  · exact .inl

theorem means200 : Means200 (b!"200") := ⟨by decide, .inl ⟨[], [], 0, rfl, by simp [blank], .inl rfl⟩⟩

/-- An issued licence whose limits are met grants its feature. -/
theorem issued_grants {cfg : Config} {w : World} {f text : Bytes} {kvs : List (Bytes × Bytes)} (h : Issued w f kvs text)
    (hm : Met w kvs) (k : Nat) : Grants cfg w cfg.magic f text (w.clock k) := by
  obtain ⟨s, data, h1, h2, h3, hlim⟩ := issued_limits h
  refine ⟨⟨⟨s, h1⟩, b!"200", ((hlim _ _).mpr (.inr (.inl ⟨rfl, rfl⟩))).2, means200⟩, ⟨s, data, h1, h2, h3⟩, rfl, ?_, ?_, ?_⟩
  · intro v hv
    rw [issued_limit h (by decide) (by decide)] at hv
    obtain ⟨d, hd, hk⟩ := hm.ends v hv
    exact ⟨_, seconds_of_notation hd _, hk k⟩
  · intro v hv
    rw [issued_limit h (by decide) (by decide)] at hv
    obtain ⟨d, hd, hk⟩ := hm.begins v hv
    exact ⟨_, seconds_of_notation hd _, hk k⟩
  · intro v hv
    rw [issued_limit h (by decide) (by decide)] at hv
    obtain ⟨m, n, hg, hx⟩ := hm.here v hv
    exact (C27_validate_iff _ _).mp (C26_generated_identifier_validates m _ hx n v hg)

/-! ## C56 -/

/-- **C56**: if a licence that was issued for the feature is found, and its limits are met on this machine during the call,
    then a caller who passes the right magic number gets LICENSE_OK whenever the call returns, whatever other licences are
    found. -/
theorem C56_issued_accepted {cfg : Config} {w : World} {caller : Option Caller} {hint : Option LicenseLocation}
    {out : Option LicInfo} {res : AcquireResult} (h : acquire cfg w caller hint out = .ok res)
    {f src text : Bytes} {limits : List (Bytes × Bytes)} (hf : FeatureIs cfg caller f) (hmagic : magicOf caller = cfg.magic)
    (ho : Offers cfg w hint src text) (hi : Issued w f limits text) (hm : Met w limits) : res.ret = .licenseOk :=
  C02_license_ok_complete h hf ho (fun k _ => by rw [hmagic]; exact issued_grants hi hm k)

/-- What a call needs besides, in order to return: the expiry date is less than 2^31 days ahead, and the path of the log file
    fits if the module's name is unknown (which is logged). -/
structure Spec.Benign (w : World) (limits : List (Bytes × Bytes)) : Prop where
  log : w.moduleName = none → w.machine.logOverruns = false
  near : ∀ v d, (b!"valid-to", v) ∈ limits → IsNotation v d → ∀ k, w.mktime d.year d.month d.day - w.clock k < 86400 * 2147483647

/-- If the issued licence is the only text there is, and nothing else goes wrong while searching, the call returns. -/
theorem issued_returns {cfg : Config} {w : World} {caller : Option Caller} {hint : Option LicenseLocation}
    (out : Option LicInfo) {f src text : Bytes} {limits : List (Bytes × Bytes)} (hf : FeatureIs cfg caller f)
    (ho : Offers cfg w hint src text) (hi : Issued w f limits text) (hm : Met w limits) (hb : Benign w limits)
    (honly : ∀ src' text', Offers cfg w hint src' text' → text' = text)
    (hpath : ∀ p, Searched cfg w hint p → (p.takeWhile (· ≠ 0)).length < pathRoom w.platform ∧ (w.probe p = true → w.read p ≠ none))
    (henv : cfg.withEnvVar = false)
    (hhint : ∀ l, hint = some l → (l.kind = 0 ∨ l.kind = 1) ∧ ∃ d, TextIn l.data 4096 d) :
    ∃ res, acquire cfg w caller hint out = .ok res := by
  obtain ⟨s, data, h1, h2, h3, hlim⟩ := issued_limits hi
  have hcand : ∀ {f' t'}, Candidate cfg w caller hint f' t' → f' = f ∧ t' = text := by
    intro f' t' hc
    obtain ⟨src', ho'⟩ := hc.offered
    exact ⟨featureIs_unique hc.asked hf, honly _ _ ho'⟩
  have hdate : ∀ v, (b!"valid-to", v) ∈ limits ∨ (b!"valid-from", v) ∈ limits → ∀ e, secondsFromEpoch w.mktime v ≠ .throw e := by
    intro v hv e
    rcases hv with hv | hv
    · obtain ⟨d, hd, _⟩ := hm.ends v hv
      rw [seconds_of_notation hd]; simp
    · obtain ⟨d, hd, _⟩ := hm.begins v hv
      rw [seconds_of_notation hd]; simp
  have hver : ∀ {s' data'}, lastValue (b!"sig") (entriesFor f text) = some s' → SigningData f (entriesFor f text) data' →
      w.verify data' s' = .ok true := by
    intro s' data' h4 h5
    rw [h1] at h4
    simp only [Option.some.injEq] at h4
    subst h4
    rw [signingData_unique h5 h2]; exact h3
  apply C50_returns
  · intro e ht
    cases ht with
    | unknownKind a b c => 
      rename_i hd _
      obtain ⟨hk, _⟩ := hhint _ a
      rcases hk with hk | hk
      · exact b hk
      · exact c hk
    | dataEquals a => rw [henv] at a; simp at a
    | hintEquals a b => rcases (hhint _ a).1 with hk | hk <;> rw [b] at hk <;> simp at hk
    | vanished a b c => exact (hpath _ a).2 b c
    | badExpiry hc a b =>
      obtain ⟨rfl, rfl⟩ := hcand hc
      rw [issued_limit hi (by decide) (by decide)] at a
      exact hdate _ (.inl a) _ b
    | badBegin hc _ a b =>
      obtain ⟨rfl, rfl⟩ := hcand hc
      rw [issued_limit hi (by decide) (by decide)] at a
      exact hdate _ (.inr a) _ b
    | verifier hc a b c =>
      obtain ⟨rfl, rfl⟩ := hcand hc
      rw [hver a b] at c; simp at c
    | hardware hc _ a b c d =>
      obtain ⟨rfl, rfl⟩ := hcand hc
      rw [issued_limit hi (by decide) (by decide)] at a
      obtain ⟨m, n, hg, hx⟩ := hm.here _ a
      have hv := C26_generated_identifier_validates m _ hx n _ hg
      rw [(C28_throw_iff _ _ _).mpr ⟨c, _, b, d⟩] at hv
      simp at hv
  · intro hu
    cases hu with
    | feature a => exact a ⟨f, hf⟩
    | longPath a b => have := (hpath _ a).1; omega
    | hintMemory a b => exact b (hhint _ a).2
    | dataAlone a => rw [henv] at a; simp at a
    | dataDecoding a => rw [henv] at a; simp at a
    | hintDecoding a b =>
      rcases (hhint _ a).1 with hk | hk <;> rw [b] at hk <;> simp at hk
    | @farExpiry _ _ v t n k hc a b c d =>
      obtain ⟨rfl, rfl⟩ := hcand hc
      rw [issued_limit hi (by decide) (by decide)] at a
      obtain ⟨dd, hd, hend⟩ := hm.ends _ a
      have hnear := hb.near _ _ a hd k
      have hend := hend k
      rw [seconds_of_notation hd] at b
      simp only [Outcome.ok.injEq] at b
      subst b
      obtain ⟨c1, c2⟩ := c
      omega
    | verifier hc a b c =>
      obtain ⟨rfl, rfl⟩ := hcand hc
      rw [hver a b] at c; simp at c
    | identifier hc _ a b =>
      obtain ⟨rfl, rfl⟩ := hcand hc
      rw [issued_limit hi (by decide) (by decide)] at a
      obtain ⟨m, n, hg, hx⟩ := hm.here _ a
      have hv := C26_generated_identifier_validates m _ hx n _ hg
      rw [(C28_ub_iff _ _).mpr (.inl b)] at hv
      simp at hv
    | logIdentifier a hc _ b c =>
      obtain ⟨rfl, rfl⟩ := hcand hc
      rw [issued_limit hi (by decide) (by decide)] at b
      obtain ⟨m, n, hg, hx⟩ := hm.here _ b
      have hv := C26_generated_identifier_validates m _ hx n _ hg
      rw [(C28_ub_iff _ _).mpr (.inr (.inr ⟨a, c⟩))] at hv
      simp at hv
    | logModule a _ b => rw [hb.log b] at a; simp at a
    | hardware hc _ a b c =>
      obtain ⟨rfl, rfl⟩ := hcand hc
      rw [issued_limit hi (by decide) (by decide)] at a
      obtain ⟨m, n, hg, hx⟩ := hm.here _ a
      have hv := C26_generated_identifier_validates m _ hx n _ hg
      rw [(C28_ub_iff _ _).mpr (.inr (.inl ⟨_, b, by grind⟩))] at hv
      simp at hv
    | nothing a b c d =>
      cases ho with
      | nearModule g1 g2 => rw [b g1] at g2; simp at g2
      | envLocation g1 => rw [henv] at g1; simp at g1
      | envData g1 => rw [henv] at g1; simp at g1
      | envDataEncoded g1 => rw [henv] at g1; simp at g1
      | hintPath g1 g2 g3 g4 =>
        obtain ⟨rest, hr⟩ := c _ g1
        have : TextIn (0 :: rest) 4096 [] := ⟨by simp, .inl ⟨rest, rfl, by simp⟩⟩
        rw [hr] at g3
        have := textIn_unique g3 this
        subst this
        simp [splitString, splitAux] at g4
      | hintPathOddName g1 g2 g3 g4 =>
        obtain ⟨rest, hr⟩ := c _ g1
        have : TextIn (0 :: rest) 4096 [] := ⟨by simp, .inl ⟨rest, rfl, by simp⟩⟩
        rw [hr] at g3
        have := textIn_unique g3 this
        subst this
        simp [splitString, splitAux] at g4
      | hintPlain g1 g2 g3 g4 =>
        obtain ⟨rest, hr⟩ := c _ g1
        have : TextIn (0 :: rest) 4096 [] := ⟨by simp, .inl ⟨rest, rfl, by simp⟩⟩
        rw [hr] at g3
        exact g4 (textIn_unique g3 this)
      | hintEncoded g1 g2 g3 g4 =>
        obtain ⟨rest, hr⟩ := c _ g1
        have : TextIn (0 :: rest) 4096 [] := ⟨by simp, .inl ⟨rest, rfl, by simp⟩⟩
        rw [hr] at g3
        exact g4 (textIn_unique g3 this)

/-- **C56** in the default configuration: the issued licence lies next to the executable with the extension `.lic`.  The call
    returns, and returns LICENSE_OK. -/
theorem C56_near_module {cfg : Config} {w : World} {caller : Option Caller} (out : Option LicInfo) {m f text : Bytes}
    {limits : List (Bytes × Bytes)} (hnear : cfg.nearModule = true) (henv : cfg.withEnvVar = false)
    (hf : FeatureIs cfg caller f) (hmagic : magicOf caller = cfg.magic)
    (hmod : w.moduleName = some m) (hlen : (removeExtension m ++ b!".lic").length < pathRoom w.platform)
    (hprobe : w.probe (removeExtension m ++ b!".lic") = true) (hread : w.read (removeExtension m ++ b!".lic") = some text)
    (hsize : text.length ≤ 4096) (hi : Issued w f limits text) (hm : Met w limits) (hb : Benign w limits) :
    ∃ res, acquire cfg w caller none out = .ok res ∧ res.ret = .licenseOk := by
  have ho : Offers cfg w none (removeExtension m ++ b!".lic") text := by
    have := Offers.nearModule (hint := none) hnear hmod hprobe hread
    rwa [List.take_of_length_le hsize] at this
  obtain ⟨res, hr⟩ := issued_returns out hf ho hi hm hb
    (by
      intro src' text' h
      cases h with
      | nearModule g1 g2 g3 g4 =>
        rw [hmod] at g2
        simp only [Option.some.injEq] at g2
        subst g2
        rw [hread] at g4
        simp only [Option.some.injEq] at g4
        subst g4
        exact List.take_of_length_le hsize
      | envLocation g1 => rw [henv] at g1; simp at g1
      | envData g1 => rw [henv] at g1; simp at g1
      | envDataEncoded g1 => rw [henv] at g1; simp at g1
      | hintPath g1 => simp at g1
      | hintPathOddName g1 => simp at g1
      | hintPlain g1 => simp at g1
      | hintEncoded g1 => simp at g1)
    (by
      intro p hp
      cases hp with
      | nearModule g1 g2 =>
        rw [hmod] at g2
        simp only [Option.some.injEq] at g2
        subst g2
        refine ⟨?_, fun _ => by rw [hread]; simp⟩
        exact Nat.lt_of_le_of_lt (List.takeWhile_prefix _).length_le hlen
      | envLocation g1 => rw [henv] at g1; simp at g1
      | hintPath g1 => simp at g1)
    henv (by simp)
  exact ⟨res, hr, C56_issued_accepted hr hf hmagic ho hi hm⟩

/-- **C56** for a text passed by the caller (LICENSE_PLAIN_DATA), when there is no licence file next to the executable. -/
theorem C56_passed_text {cfg : Config} {w : World} {caller : Option Caller} (out : Option LicInfo) {l : LicenseLocation} {f text : Bytes}
    {limits : List (Bytes × Bytes)} (henv : cfg.withEnvVar = false)
    (hf : FeatureIs cfg caller f) (hmagic : magicOf caller = cfg.magic)
    (hmod : ∀ m, w.moduleName = some m → (removeExtension m ++ b!".lic").length < pathRoom w.platform ∧ w.probe (removeExtension m ++ b!".lic") = false)
    (hkind : l.kind = 1) (htext : TextIn l.data 4096 text)
    (hi : Issued w f limits text) (hm : Met w limits) (hb : Benign w limits) :
    ∃ res, acquire cfg w caller (some l) out = .ok res ∧ res.ret = .licenseOk := by
  have hne : text ≠ [] := by
    obtain ⟨s, data, _, rfl, _⟩ := hi.signed
    simp [issuedText]
  have ho : Offers cfg w (some l) (b!"ExternalDefinition") text := .hintPlain rfl hkind htext hne
  obtain ⟨res, hr⟩ := issued_returns out hf ho hi hm hb
    (by
      intro src' text' h
      cases h with
      | nearModule g1 g2 g3 g4 => rw [(hmod _ g2).2] at g3; simp at g3
      | envLocation g1 => rw [henv] at g1; simp at g1
      | envData g1 => rw [henv] at g1; simp at g1
      | envDataEncoded g1 => rw [henv] at g1; simp at g1
      | hintPath g1 g2 => simp only [Option.some.injEq] at g1; subst g1; rw [hkind] at g2; simp at g2
      | hintPathOddName g1 g2 => simp only [Option.some.injEq] at g1; subst g1; rw [hkind] at g2; simp at g2
      | hintPlain g1 g2 g3 => simp only [Option.some.injEq] at g1; subst g1; exact textIn_unique g3 htext
      | hintEncoded g1 g2 => simp only [Option.some.injEq] at g1; subst g1; rw [hkind] at g2; simp at g2)
    (by
      intro p hp
      cases hp with
      | nearModule g1 g2 =>
        obtain ⟨h1, h2⟩ := hmod _ g2
        refine ⟨Nat.lt_of_le_of_lt (List.takeWhile_prefix _).length_le h1, fun h => ?_⟩
        rw [h2] at h; simp at h
      | envLocation g1 => rw [henv] at g1; simp at g1
      | hintPath g1 g2 => simp only [Option.some.injEq] at g1; subst g1; rw [hkind] at g2; simp at g2)
    henv (by intro l' hl; simp only [Option.some.injEq] at hl; subst hl; exact ⟨.inr hkind, text, htext⟩)
  exact ⟨res, hr, C56_issued_accepted hr hf hmagic ho hi hm⟩

/-! ### A concrete issued licence -/

/-- Limited in time and locked to `sampleMachine`. -/
def issuedLimits : List (Bytes × Bytes) :=
  [(b!"valid-from", b!"2020-01-01"), (b!"client-signature", b!"AEEC-AwQF-Bgc="), (b!"valid-to", b!"20300101"), (b!"Note", b!"for A & B")]

def issuedWorld : World :=
  { sampleWorld sampleNow with
    machine := sampleMachine
    verify := fun data sig => .ok (data =
      b!"TESTNotefor A & Bclient-signatureAEEC-AwQF-Bgc=lic_ver200valid-from2020-01-01valid-to20300101" ∧ sig = b!"QUJD")
    read := fun _ => some (issuedText (b!"test") issuedLimits (b!"QUJD")) }

theorem sample_issued : Issued issuedWorld (b!"test") issuedLimits (issuedText (b!"test") issuedLimits (b!"QUJD")) := by
  have plain : ∀ {s : Bytes}, (∀ c ∈ s, c ≠ 10 ∧ c ≠ 13 ∧ c ≠ 0) → (∀ c ∈ s.head?, c ∉ ([32, 9, 10, 11, 12, 13] : Bytes)) →
      (∀ c ∈ s.getLast?, c ∉ ([32, 9, 10, 11, 12, 13] : Bytes)) → PlainText s :=
    fun h1 h2 h3 => ⟨h1, fun c hc => h2 c hc, fun c hc => h3 c hc⟩
  refine ⟨⟨plain (by decide) (by decide) (by decide), by decide⟩, ?_, ?_, ?_⟩
  · have : ∀ e ∈ issuedLimits, ((∀ c ∈ e.1, c ≠ 10 ∧ c ≠ 13 ∧ c ≠ 0) ∧ (∀ c ∈ e.1.head?, c ∉ ([32, 9, 10, 11, 12, 13] : Bytes))
        ∧ (∀ c ∈ e.1.getLast?, c ∉ ([32, 9, 10, 11, 12, 13] : Bytes)) ∧ 61 ∉ e.1 ∧ e.1 ≠ [] ∧ (∀ c ∈ e.1.head?, c ≠ 59 ∧ c ≠ 35 ∧ c ≠ 91))
        ∧ ((∀ c ∈ e.2, c ≠ 10 ∧ c ≠ 13 ∧ c ≠ 0) ∧ (∀ c ∈ e.2.head?, c ∉ ([32, 9, 10, 11, 12, 13] : Bytes))
        ∧ (∀ c ∈ e.2.getLast?, c ∉ ([32, 9, 10, 11, 12, 13] : Bytes))) := by decide +kernel
    intro e he
    obtain ⟨⟨a1, a2, a3, a4, a5, a6⟩, b1, b2, b3⟩ := this e he
    refine ⟨⟨plain a1 a2 a3, a4, ?_⟩, plain b1 b2 b3⟩
    obtain ⟨k, v⟩ := e
    cases k with
    | nil => exact absurd rfl a5
    | cons c r => exact ⟨c, r, rfl, a6 c (by simp)⟩
  · have : (b!"lic_ver" :: b!"sig" :: issuedLimits.map (·.1)).Pairwise (fun a b => Ini.sameName a b = false) := by decide +kernel
    refine this.imp ?_
    intro a b h hs
    rw [← Ini.sameName_iff, h] at hs
    simp at hs
  · refine ⟨b!"QUJD", _, plain (by decide) (by decide) (by decide), rfl,
      ⟨[(b!"Note", b!"for A & B"), (b!"client-signature", b!"AEEC-AwQF-Bgc="), (b!"lic_ver", b!"200"), (b!"valid-from", b!"2020-01-01"),
        (b!"valid-to", b!"20300101")], ?_, by decide, rfl⟩, by decide +kernel⟩
    decide

theorem sample_met : Met issuedWorld issuedLimits := by
  have hn1 : IsNotation (b!"2020-01-01") ⟨2, 0, 2, 0, 0, 1, 0, 1⟩ := .inr (.inl (by decide))
  have hn2 : IsNotation (b!"20300101") ⟨2, 0, 3, 0, 0, 1, 0, 1⟩ := .inl (by decide)
  refine ⟨?_, ?_, ?_⟩
  · intro v hv
    have : v = b!"2020-01-01" := by simpa [issuedLimits] using hv
    subst this
    exact ⟨_, hn1, fun k => by change (_ : Int) ≤ sampleNow; decide⟩
  · intro v hv
    have : v = b!"20300101" := by simpa [issuedLimits] using hv
    subst this
    exact ⟨_, hn2, fun k => by change sampleNow ≤ (_ : Int); decide⟩
  · intro v hv
    have : v = b!"AEEC-AwQF-Bgc=" := by simpa [issuedLimits] using hv
    subst this
    exact ⟨sampleMachine, -1, by decide +kernel, Spec.Extends.refl _⟩

theorem sample_benign : Benign issuedWorld issuedLimits := by
  refine ⟨fun _ => rfl, ?_⟩
  intro v d hv hd k
  have : v = b!"20300101" := by simpa [issuedLimits] using hv
  subst this
  have e1 := seconds_of_notation hd issuedWorld.mktime
  have e2 := seconds_of_notation (.inl (by decide) : IsNotation (b!"20300101") ⟨2, 0, 3, 0, 0, 1, 0, 1⟩) issuedWorld.mktime
  rw [e1] at e2
  simp only [Outcome.ok.injEq] at e2
  rw [e2]
  change (_ : Int) - sampleNow < _
  decide

/-- The hypotheses of C56 are met by the sample. -/
example : ∃ res, acquire sampleConfig issuedWorld (some sampleCaller) none none = .ok res ∧ res.ret = .licenseOk :=
  C56_near_module none rfl rfl (f := b!"test")
    (.named ⟨by decide, .inl ⟨List.replicate 11 0, by decide, by decide⟩⟩ (by decide)) rfl (m := b!"/opt/app") rfl (by decide +kernel) (by decide +kernel) rfl
    (by decide +kernel) sample_issued sample_met sample_benign

/-- The file of the sample. -/
example : issuedText (b!"test") issuedLimits (b!"QUJD")
    = b!"[TEST]\nlic_ver = 200\nvalid-from = 2020-01-01\nclient-signature = AEEC-AwQF-Bgc=\nvalid-to = 20300101\nNote = for A & B\nsig = QUJD\n" := by
  decide +kernel

/-! ## C57 what is not enforced -/

/-- **C57**: of the limits of a signed licence only the two dates and the hardware identifier matter: two licences issued for
    the same feature that agree on these grant the same, whatever their other limits are - in particular `start-version`
    and `end-version`. -/
theorem C57_only_three_limits {cfg : Config} {w : World} {f text text' : Bytes} {limits limits' : List (Bytes × Bytes)}
    (h : Issued w f limits text) (h' : Issued w f limits' text')
    (hsame : ∀ k v, k = b!"valid-from" ∨ k = b!"valid-to" ∨ k = b!"client-signature" → ((k, v) ∈ limits ↔ (k, v) ∈ limits'))
    (magic : Nat) (now : Int) : Grants cfg w magic f text now ↔ Grants cfg w magic f text' now := by
  have one : ∀ {t t' : Bytes} {ls ls' : List (Bytes × Bytes)}, Issued w f ls t → Issued w f ls' t' →
      (∀ k v, k = b!"valid-from" ∨ k = b!"valid-to" ∨ k = b!"client-signature" → ((k, v) ∈ ls ↔ (k, v) ∈ ls')) →
      Grants cfg w magic f t now → Grants cfg w magic f t' now := by
    intro t t' ls ls' hi hi' hs hg
    have same : ∀ {k v}, k = b!"valid-from" ∨ k = b!"valid-to" ∨ k = b!"client-signature" → IsLimit (entriesFor f t') k v →
        IsLimit (entriesFor f t) k v := by
      intro k v hk hl
      have h1 : k ≠ b!"lic_ver" := by rcases hk with rfl | rfl | rfl <;> decide
      have h2 : k ≠ b!"sig" := by rcases hk with rfl | rfl | rfl <;> decide
      rw [issued_limit hi' h1 h2] at hl
      rw [issued_limit hi h1 h2]
      exact (hs k v hk).mpr hl
    obtain ⟨s, data, h1, h2, h3, hlim⟩ := issued_limits hi'
    exact ⟨⟨⟨s, h1⟩, b!"200", ((hlim _ _).mpr (.inr (.inl ⟨rfl, rfl⟩))).2, means200⟩, ⟨s, data, h1, h2, h3⟩, hg.magic,
      fun v hv => hg.notExpired v (same (.inr (.inl rfl)) hv), fun v hv => hg.started v (same (.inl rfl) hv),
      fun v hv => hg.machine v (same (.inr (.inr rfl)) hv)⟩
  exact ⟨one h h' hsame, one h' h (fun k v hk => (hsame k v hk).symm)⟩

theorem offers_plain {cfg : Config} {w : World} {l : LicenseLocation} {d : Bytes} (hk : l.kind = 1) (ht : TextIn l.data 4096 d)
    (hd : d ≠ []) (src t : Bytes) :
    Offers cfg w (some l) src t ↔ Offers cfg w none src t ∨ (src = b!"ExternalDefinition" ∧ t = d) := by
  constructor
  · intro h
    cases h with
    | nearModule a b c e => exact .inl (.nearModule a b c e)
    | envLocation a b c e g => exact .inl (.envLocation a b c e g)
    | envData a b c e g => exact .inl (.envData a b c e g)
    | envDataEncoded a b c e g i j => exact .inl (.envDataEncoded a b c e g i j)
    | hintPath g1 g2 => simp only [Option.some.injEq] at g1; subst g1; rw [hk] at g2; simp at g2
    | hintPathOddName g1 g2 => simp only [Option.some.injEq] at g1; subst g1; rw [hk] at g2; simp at g2
    | hintPlain g1 g2 g3 => simp only [Option.some.injEq] at g1; subst g1; exact .inr ⟨rfl, textIn_unique g3 ht⟩
    | hintEncoded g1 g2 => simp only [Option.some.injEq] at g1; subst g1; rw [hk] at g2; simp at g2
  · rintro (h | ⟨rfl, rfl⟩)
    · cases h with
      | nearModule a b c e => exact .nearModule a b c e
      | envLocation a b c e g => exact .envLocation a b c e g
      | envData a b c e g => exact .envData a b c e g
      | envDataEncoded a b c e g i j => exact .envDataEncoded a b c e g i j
      | hintPath g1 => simp at g1
      | hintPathOddName g1 => simp at g1
      | hintPlain g1 => simp at g1
      | hintEncoded g1 => simp at g1
    · exact .hintPlain rfl hk ht hd

/-- **C57** for calls: passing one or the other of two such licences gives the same verdict while the clock stands still,
    whatever other licences are found. -/
theorem C57_same_verdict {cfg : Config} {w : World} {caller : Option Caller} {l l' : LicenseLocation} {out out' : Option LicInfo}
    {res res' : AcquireResult} {f text text' : Bytes} {limits limits' : List (Bytes × Bytes)} {now : Int}
    (hf : FeatureIs cfg caller f) (h : Issued w f limits text) (h' : Issued w f limits' text')
    (hsame : ∀ k v, k = b!"valid-from" ∨ k = b!"valid-to" ∨ k = b!"client-signature" → ((k, v) ∈ limits ↔ (k, v) ∈ limits'))
    (hk : l.kind = 1) (hk' : l'.kind = 1) (ht : TextIn l.data 4096 text) (ht' : TextIn l'.data 4096 text')
    (hclock : ∀ k, w.clock k = now)
    (ha : acquire cfg w caller (some l) out = .ok res) (ha' : acquire cfg w caller (some l') out' = .ok res') :
    res.ret = .licenseOk ↔ res'.ret = .licenseOk := by
  have ne : ∀ {t : Bytes} {ls : List (Bytes × Bytes)}, Issued w f ls t → t ≠ [] := by
    intro t ls hi
    obtain ⟨s, data, _, rfl, _⟩ := hi.signed
    simp [issuedText]
  have key := C57_only_three_limits (cfg := cfg) h h' hsame (magicOf caller) now
  rw [C02_license_ok_iff ha hclock, C02_license_ok_iff ha' hclock]
  constructor
  · rintro ⟨f', src, t, h1, h2, h3⟩
    rw [offers_plain hk ht (ne h)] at h2
    rcases h2 with h2 | ⟨rfl, rfl⟩
    · exact ⟨f', src, t, h1, (offers_plain hk' ht' (ne h') _ _).mpr (.inl h2), h3⟩
    · have := featureIs_unique h1 hf; subst this
      exact ⟨f', _, text', h1, (offers_plain hk' ht' (ne h') _ _).mpr (.inr ⟨rfl, rfl⟩), key.mp h3⟩
  · rintro ⟨f', src, t, h1, h2, h3⟩
    rw [offers_plain hk' ht' (ne h')] at h2
    rcases h2 with h2 | ⟨rfl, rfl⟩
    · exact ⟨f', src, t, h1, (offers_plain hk ht (ne h) _ _).mpr (.inl h2), h3⟩
    · have := featureIs_unique h1 hf; subst this
      exact ⟨f', _, text, h1, (offers_plain hk ht (ne h) _ _).mpr (.inr ⟨rfl, rfl⟩), key.mpr h3⟩

/-- A licence for versions 7 to 8 only. -/
def versionText : Bytes := b!"[TEST]\nlic_ver = 200\nstart-version = 7\nend-version = 8\nsig = QUJD\n"

/-- It is accepted; no version of the calling program is ever asked for. -/
example : retOf (acquire sampleConfig { sampleWorld sampleNow with
      verify := fun data sig => .ok (data = b!"TESTend-version8lic_ver200start-version7" ∧ sig = b!"QUJD"), read := fun _ => some versionText }
    (some sampleCaller) none none) = some .licenseOk := by decide +kernel

end Licensecc
