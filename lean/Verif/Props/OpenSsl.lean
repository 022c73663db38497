import Verif.Model.OpenSsl
import Verif.Props.Logger
import Verif.Props.Exceptions
import Verif.Props.Signing
/-!
# C58: the signature check on Linux
-/
namespace Licensecc
open Licensecc.Spec

/-- The decoder keeps to the size of base64: three bytes for four characters. -/
def Spec.DecodesBase64 (o : OpenSsl) : Prop := ∀ s, ∃ d, o.bioRead s = some d ∧ 4 * d.length ≤ 3 * s.length

/-- What confirms a signature. -/
structure Spec.Confirms (o : OpenSsl) (data sig : Bytes) : Prop where
  key : o.keyParses = true
  context : o.contextCreated = true
  init : o.digestInit = true
  update : o.digestUpdate data = 1
  final : ∃ d, o.bioRead sig = some d ∧ o.digestFinal data d = 1

/-- **C58**: the check accepts exactly when the key can be read, the signature decodes to fewer than 512 bytes, and OpenSSL
    confirms every step with 1, the last one for these data and this decoded signature. -/
theorem C58_accepts_iff (o : OpenSsl) (data sig : Bytes) : o.verify data sig = .ok true ↔
    Confirms o data sig ∧ ∀ d, o.bioRead sig = some d → d.length < 512 := by
  have hc : Confirms o data sig ↔ o.keyParses = true ∧ o.contextCreated = true ∧ o.digestInit = true ∧ o.digestUpdate data = 1
      ∧ ∃ d, o.bioRead sig = some d ∧ o.digestFinal data d = 1 :=
    ⟨fun ⟨a, b, c, d, e⟩ => ⟨a, b, c, d, e⟩, fun ⟨a, b, c, d, e⟩ => ⟨a, b, c, d, e⟩⟩
  rw [hc]
  unfold OpenSsl.verify OpenSsl.fail signatureBuffer
  cases hk : o.keyParses <;> cases hc : o.contextCreated <;> cases hi : o.digestInit <;> cases hb : o.bioRead sig <;>
    cases hl : o.logOverruns <;> simp <;> grind

/-- **C58** (the property "the check is memory safe" fails): exactly when the check writes outside its buffers: the decoded
    signature does not leave room for the NUL behind it, or the signature is refused and logging that overruns. -/
theorem C58_overrun_iff (o : OpenSsl) (data sig : Bytes) : o.verify data sig = .ub ↔
    (o.keyParses = true ∧ ∀ d, o.bioRead sig = some d → 512 ≤ d.length) ∨ (o.logOverruns = true ∧ ¬ Confirms o data sig) := by
  have hc : Confirms o data sig ↔ o.keyParses = true ∧ o.contextCreated = true ∧ o.digestInit = true ∧ o.digestUpdate data = 1
      ∧ ∃ d, o.bioRead sig = some d ∧ o.digestFinal data d = 1 :=
    ⟨fun ⟨a, b, c, d, e⟩ => ⟨a, b, c, d, e⟩, fun ⟨a, b, c, d, e⟩ => ⟨a, b, c, d, e⟩⟩
  rw [hc]
  unfold OpenSsl.verify OpenSsl.fail signatureBuffer
  cases hk : o.keyParses <;> cases hc : o.contextCreated <;> cases hi : o.digestInit <;> cases hb : o.bioRead sig <;>
    cases hl : o.logOverruns <;> simp <;> grind

/-- **C58**: it never throws. -/
theorem C58_no_exception (o : OpenSsl) (data sig : Bytes) (e : Exn) : o.verify data sig ≠ .throw e := by
  unfold OpenSsl.verify OpenSsl.fail
  repeat' split
  all_goals simp

/-- **C58**, what holds: signatures of up to 682 characters are checked safely (an RSA key of up to 4080 bits needs no more;
    1024 bits need 172), if logging is safe. -/
theorem C58_short_signature_safe {o : OpenSsl} (ho : DecodesBase64 o) (hlog : o.logOverruns = false) (data : Bytes) {sig : Bytes}
    (hs : sig.length ≤ 682) : ∃ b, o.verify data sig = .ok b ∧ (b = true ↔ Confirms o data sig) := by
  obtain ⟨d, hd, hl⟩ := ho sig
  have hacc := C58_accepts_iff o data sig
  cases hv : o.verify data sig with
  | ok b =>
    refine ⟨b, rfl, ?_⟩
    rw [hv] at hacc
    constructor
    · rintro rfl; exact (hacc.mp rfl).1
    · intro hc
      have := hacc.mpr ⟨hc, fun d' h => by rw [hd] at h; simp only [Option.some.injEq] at h; subst h; omega⟩
      simpa using this
  | throw e => exact absurd hv (C58_no_exception o data sig e)
  | ub =>
    rcases (C58_overrun_iff o data sig).mp hv with h | h
    · have := h.2 d hd
      omega
    · rw [hlog] at h; simp at h

/-- **C58**: signatures made with a key of 4096 bits have 512 bytes: checking a genuine one is undefined behaviour. -/
theorem C58_rsa4096 {o : OpenSsl} (hk : o.keyParses = true) (data : Bytes) {sig d : Bytes} (hd : o.bioRead sig = some d)
    (hlen : d.length = 512) : o.verify data sig = .ub := by
  refine (C58_overrun_iff o data sig).mpr (.inl ⟨hk, fun d' h => ?_⟩)
  rw [hd] at h
  simp only [Option.some.injEq] at h
  subst h; omega

/-! ## In acquire_license -/

section
variable {cfg : Config} {w : World} {caller : Option Caller} {hint : Option LicenseLocation}

theorem judgeLoop_checks {lics : List FullLicense} : ∀ {r : Registry} {k : Nat} {x},
    judgeLoop cfg w caller r k lics = .ok x → ∀ l ∈ lics, ∃ g, w.verify l.printForSign l.signature = .ok g := by
  induction lics with
  | nil => intro r k x _ l hl; simp at hl
  | cons a ls ih =>
    intro r k x h l hl
    unfold judgeLoop at h
    dsimp only at h
    obtain ⟨⟨r1, g⟩, h1, h⟩ := Outcome.bind_eq_ok.mp h
    obtain ⟨⟨i, k1⟩, h2, h⟩ := Outcome.bind_eq_ok.mp h
    have ha : w.verify a.printForSign a.signature = .ok g := verifySignature_ok (l := withMagic caller a) h1
    dsimp only at h
    rcases List.mem_cons.mp hl with rfl | hl
    · exact ⟨g, ha⟩
    · split at h
      · obtain ⟨⟨r2, k2, v⟩, h3, h⟩ := Outcome.bind_eq_ok.mp h
        obtain ⟨y, h4, _⟩ := Outcome.bind_eq_ok.mp h
        exact ih h4 l hl
      · obtain ⟨y, h4, _⟩ := Outcome.bind_eq_ok.mp h
        exact ih h4 l hl

/-- Every complete licence that is found has its signature checked, and the check returned. -/
theorem acquire_checks {out : Option LicInfo} {res : AcquireResult} (h : acquire cfg w caller hint out = .ok res) {f text : Bytes}
    (hc : Candidate cfg w caller hint f text) : ∃ s data g, lastValue (b!"sig") (entriesFor f text) = some s
      ∧ SigningData f (entriesFor f text) data ∧ w.verify data s = .ok g := by
  obtain ⟨hf, ⟨src, ho⟩, hcomp⟩ := hc
  obtain ⟨f', r, lics, es, hf', hr, _, hcs, _⟩ := acquire_cases h
  have := featureIs_unique hf hf'; subst this
  obtain ⟨l, hl, hlic⟩ := licence_of_complete hr ho hcomp
  rcases hcs with ⟨hnil, _⟩ | ⟨_, vs, es', oks, errs, r1, _, hloop, _⟩
  · rw [hnil] at hl; simp at hl
  · obtain ⟨g, hg⟩ := judgeLoop_checks hloop l hl
    exact ⟨_, _, g, hlic.signature, signingData_of_licence hlic, hg⟩

/-- **C58** in a call: a licence for the feature whose `sig` decodes to 512 bytes or more - nothing in it need be genuine -
    prevents the call from returning, whatever other licences there are. -/
theorem C58_long_signature_never_returns {o : OpenSsl} (hw : w.verify = o.verify) (hk : o.keyParses = true) {out : Option LicInfo}
    {f text s d : Bytes} (hc : Candidate cfg w caller hint f text) (hs : lastValue (b!"sig") (entriesFor f text) = some s)
    (hd : o.bioRead s = some d) (hlen : 512 ≤ d.length) (res : AcquireResult) : acquire cfg w caller hint out ≠ .ok res := by
  intro h
  obtain ⟨s', data, g, h1, h2, h3⟩ := acquire_checks h hc
  rw [hs] at h1
  simp only [Option.some.injEq] at h1
  subst h1
  rw [hw, (C58_overrun_iff o data s).mpr <| .inl ⟨hk, fun d' h => by rw [hd] at h; simp only [Option.some.injEq] at h; subst h; exact hlen⟩] at h3
  simp at h3

/-- **C59** in a call: if the log file is not open and TMPDIR has 238 bytes or more, a licence for the feature with a bad
    signature prevents the call from returning, instead of being refused. -/
theorem C59_bad_signature_never_returns {o : OpenSsl} (hw : w.verify = o.verify) {tmpdir : Option Bytes} {s : Logger.State}
    (hlog : o.logOverruns = Logger.overruns tmpdir s) (hclosed : s.logFile = none) {dir : Bytes} (ht : tmpdir = some dir)
    (hlen : 238 ≤ dir.length) {out : Option LicInfo} {f text : Bytes} (hc : Candidate cfg w caller hint f text)
    (hbad : ∀ sig data, lastValue (b!"sig") (entriesFor f text) = some sig → SigningData f (entriesFor f text) data →
      ¬ Confirms o data sig) (res : AcquireResult) : acquire cfg w caller hint out ≠ .ok res := by
  intro h
  obtain ⟨sig, data, g, h1, h2, h3⟩ := acquire_checks h hc
  have hl : o.logOverruns = true := by rw [hlog]; exact (Logger.overruns_iff tmpdir s).mpr ⟨hclosed, dir, ht, hlen⟩
  rw [hw, (C58_overrun_iff o data sig).mpr (.inr ⟨hl, hbad sig data h1 h2⟩)] at h3
  simp at h3

/-- **C58** in a call: if that licence is the only text and is passed by the caller, the call overruns the buffer. -/
theorem C58_long_signature_overruns {o : OpenSsl} (hw : w.verify = o.verify) (hk : o.keyParses = true) {out : Option LicInfo}
    {l : LicenseLocation} {f text s d : Bytes} (hf : FeatureIs cfg caller f) (hkind : l.kind = 1) (ht : TextIn l.data 4096 text)
    (hc : Complete f text) (hs : lastValue (b!"sig") (entriesFor f text) = some s)
    (hd : o.bioRead s = some d) (hlen : 512 ≤ d.length)
    (hdate : ∀ v, ¬ IsLimit (entriesFor f text) (b!"valid-to") v)
    (h1 : cfg.nearModule = false) (h2 : cfg.withEnvVar = false) :
    acquire cfg w caller (some l) out = .ub := by
  have hne : text ≠ [] := by
    rintro rfl
    have : entriesFor f [] = [] := by
      unfold entriesFor
      have : Ini.items [] = [] := by decide +kernel
      rw [this]
      unfold entriesOf
      cases (decide (toUpperCopy f = [])) <;> rfl
    rw [this] at hs
    simp [lastValue] at hs
  have ho : Offers cfg w (some l) (b!"ExternalDefinition") text := .hintPlain rfl hkind ht hne
  have hcand : Candidate cfg w caller (some l) f text := ⟨hf, ⟨_, ho⟩, hc⟩
  have honly : ∀ {src t}, Offers cfg w (some l) src t → t = text := by
    intro src t h
    cases h with
    | nearModule g1 => rw [h1] at g1; simp at g1
    | envLocation g1 => rw [h2] at g1; simp at g1
    | envData g1 => rw [h2] at g1; simp at g1
    | envDataEncoded g1 => rw [h2] at g1; simp at g1
    | hintPath g1 g2 => simp only [Option.some.injEq] at g1; subst g1; rw [hkind] at g2; simp at g2
    | hintPathOddName g1 g2 => simp only [Option.some.injEq] at g1; subst g1; rw [hkind] at g2; simp at g2
    | hintPlain g1 g2 g3 => simp only [Option.some.injEq] at g1; subst g1; exact textIn_unique g3 ht
    | hintEncoded g1 g2 => simp only [Option.some.injEq] at g1; subst g1; rw [hkind] at g2; simp at g2
  have hver : ∀ data', w.verify data' s = .ub := by
    intro data'
    rw [hw]
    exact (C58_overrun_iff o data' s).mpr <| .inl ⟨hk, fun d' h => by rw [hd] at h; simp only [Option.some.injEq] at h; subst h; exact hlen⟩
  have hun : ¬ Signed w f text := by
    rintro ⟨s', data, g1, g2, g3⟩
    rw [hs] at g1
    simp only [Option.some.injEq] at g1
    subst g1
    rw [hver] at g3; simp at g3
  cases ha : acquire cfg w caller (some l) out with
  | ok res => exact absurd ha (C58_long_signature_never_returns hw hk hcand hs hd hlen res)
  | ub => rfl
  | throw e =>
    exfalso
    have hsame : ∀ {f' t'}, Candidate cfg w caller (some l) f' t' → f' = f ∧ t' = text := by
      intro f' t' h
      obtain ⟨src, h'⟩ := h.offered
      exact ⟨featureIs_unique h.asked hf, honly h'⟩
    cases C13_exception_causes ha with
    | unknownKind g1 _ g2 => simp only [Option.some.injEq] at g1; subst g1; exact g2 hkind
    | dataEquals g1 => rw [h2] at g1; simp at g1
    | hintEquals g1 g2 => simp only [Option.some.injEq] at g1; subst g1; rw [hkind] at g2; simp at g2
    | vanished g1 =>
      cases g1 with
      | nearModule g1 => rw [h1] at g1; simp at g1
      | envLocation g1 => rw [h2] at g1; simp at g1
      | hintPath g1 g2 => simp only [Option.some.injEq] at g1; subst g1; rw [hkind] at g2; simp at g2
    | badExpiry g1 g2 => obtain ⟨rfl, rfl⟩ := hsame g1; exact hdate _ g2
    | badBegin g1 g2 => obtain ⟨rfl, rfl⟩ := hsame g1; exact hun g2
    | verifier g1 g2 g3 g4 => rw [hw] at g4; exact C58_no_exception _ _ _ _ g4
    | hardware g1 g2 => obtain ⟨rfl, rfl⟩ := hsame g1; exact hun g2

end

/-! ### Concrete cases -/

/-- A check that decodes four characters to three bytes and accepts every signature that begins with 1. -/
def sampleOpenSsl : OpenSsl where
  keyParses := true
  bioRead := fun s => some (List.replicate (3 * s.length / 4) 1)
  contextCreated := true
  digestInit := true
  digestUpdate := fun _ => 1
  digestFinal := fun _ d => if d.head? = some 1 then 1 else 0
  logOverruns := false

example : DecodesBase64 sampleOpenSsl := fun s => ⟨_, rfl, by simp; omega⟩
example : sampleOpenSsl.verify [] (b!"QUJD") = .ok true := by decide

/-- The text of a licence with a signature of 700 characters. -/
def longSigText : Bytes := b!"[TEST]\nlic_ver=200\nsig=" ++ List.replicate 700 65 ++ b!"\n"

/-- It overruns the buffer; a signature of 680 characters does not. -/
example : acquire ⟨b!"TEST", false, false, 5⟩ { sampleWorld sampleNow with verify := sampleOpenSsl.verify } (some sampleCaller)
      (some ⟨1, longSigText ++ [0]⟩) none = .ub
    ∧ retOf (acquire ⟨b!"TEST", false, false, 5⟩ { sampleWorld sampleNow with verify := sampleOpenSsl.verify } (some sampleCaller)
      (some ⟨1, b!"[TEST]\nlic_ver=200\nsig=" ++ List.replicate 680 65 ++ [10, 0]⟩) none) = some .licenseOk := by decide +kernel

/-- A wrong signature is refused with LICENSE_CORRUPTED; with a TMPDIR of 238 bytes it overruns the array of the logger. -/
example :
    let bad := { sampleOpenSsl with digestFinal := fun _ _ => 0 }
    let text := b!"[TEST]\nlic_ver=200\nsig=AAAA\n" ++ [0]
    retOf (acquire ⟨b!"TEST", false, false, 5⟩ { sampleWorld sampleNow with verify := bad.verify } (some sampleCaller)
      (some ⟨1, text⟩) none) = some .corrupted
    ∧ acquire ⟨b!"TEST", false, false, 5⟩ { sampleWorld sampleNow with
        verify := { bad with logOverruns := Logger.overruns (some (List.replicate 238 65)) ⟨none, fun _ => []⟩ }.verify }
      (some sampleCaller) (some ⟨1, text⟩) none = .ub := by decide +kernel

/-- The hypotheses of `C58_long_signature_overruns` are met. -/
example : ∃ f s, FeatureIs ⟨b!"TEST", false, false, 5⟩ (some sampleCaller) f ∧ TextIn (longSigText ++ [0]) 4096 longSigText
    ∧ Complete f longSigText ∧ lastValue (b!"sig") (entriesFor f longSigText) = some s ∧ 512 ≤ (3 * s.length / 4)
    ∧ ∀ v, ¬ IsLimit (entriesFor f longSigText) (b!"valid-to") v := by
  have he : entriesFor (b!"test") longSigText = [(b!"lic_ver", b!"200"), (b!"sig", List.replicate 700 65)] := by
    have : Ini.items longSigText = [.header (b!"TEST"), .entry (b!"lic_ver") (b!"200"), .entry (b!"sig") (List.replicate 700 65)] := by
      decide +kernel
    unfold entriesFor
    rw [this]
    simp only [entriesOf, entriesFrom]
    rw [Ini.decide_sameCI]
    rfl
  have hd : (([(b!"lic_ver", b!"200"), (b!"sig", List.replicate 700 65)] : List (Bytes × Bytes)).map (·.1)).Pairwise
      (fun a b => ¬ SameCI a b) := by
    simp only [List.map_cons, List.map_nil, List.pairwise_cons, List.mem_singleton, List.not_mem_nil, List.Pairwise.nil]
    refine ⟨?_, by simp, trivial⟩
    rintro a rfl ⟨h, _⟩
    simp at h
  have hsig : IsLimit (entriesFor (b!"test") longSigText) (b!"sig") (List.replicate 700 65) := by
    rw [he, isLimit_distinct hd]; exact List.mem_cons_of_mem _ (List.mem_cons_self)
  have hver : IsLimit (entriesFor (b!"test") longSigText) (b!"lic_ver") (b!"200") := by
    rw [he, isLimit_distinct hd]; exact List.mem_cons_self
  refine ⟨b!"test", List.replicate 700 65, .named ⟨by decide, .inl ⟨List.replicate 11 0, by decide, by decide⟩⟩ (by decide),
    ⟨by decide +kernel, .inl ⟨[], rfl, by decide +kernel⟩⟩, ⟨⟨_, hsig.2⟩, _, hver.2, ?_⟩, hsig.2, by decide +kernel, ?_⟩
  · exact ⟨by decide, .inl ⟨[], [], 0, rfl, by simp [blank], .inl rfl⟩⟩
  · intro v hv
    rw [he, isLimit_distinct hd] at hv
    generalize List.replicate 700 (65 : UInt8) = x at hv
    simp at hv

end Licensecc
