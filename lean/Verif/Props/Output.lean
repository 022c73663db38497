import Verif.Spec.Output
import Verif.Lemmas.Located
import Verif.Props.Base64
import Verif.Props.InspectorMain
import Verif.Props.Issued
import Verif.Props.WinSignature
/-!
# C71: what the library writes on the standard streams
-/
namespace Licensecc.Output
open Licensecc Inspector Spec

/-! ## Sequencing -/

@[simp] theorem pure_said {α : Type} (a : α) : (pure a : Noisy α).said = [] := rfl
@[simp] theorem pure_result {α : Type} (a : α) : (pure a : Noisy α).result = .ok a := rfl
@[simp] theorem quiet_said {α : Type} (x : Outcome α) : (quiet x).said = [] := rfl
@[simp] theorem quiet_result {α : Type} (x : Outcome α) : (quiet x).result = x := rfl
@[simp] theorem say_said (s : Stream) (t : Bytes) : (say s t).said = [(s, t)] := rfl
@[simp] theorem say_result (s : Stream) (t : Bytes) : (say s t).result = .ok () := rfl

@[simp] theorem bind_result {α β : Type} (x : Noisy α) (f : α → Noisy β) : (x >>= f).result = x.result >>= fun a => (f a).result := by
  show (Noisy.bind x f).result = _
  unfold Noisy.bind
  cases x.result <;> rfl

theorem bind_said_ok {α β : Type} {x : Noisy α} {f : α → Noisy β} {a : α} (h : x.result = .ok a) :
    (x >>= f).said = x.said ++ (f a).said := by
  show (Noisy.bind x f).said = _
  unfold Noisy.bind
  rw [h]

theorem bind_said_stop {α β : Type} {x : Noisy α} {f : α → Noisy β} (h : ∀ a, x.result ≠ .ok a) : (x >>= f).said = x.said := by
  show (Noisy.bind x f).said = _
  unfold Noisy.bind
  cases hx : x.result with
  | ok a => exact absurd hx (h a)
  | throw e => rfl
  | ub => rfl

/-! ## The same results -/

theorem unbase64_result (s : Bytes) : (unbase64 s).result = Licensecc.unbase64 s := by
  unfold unbase64
  split
  · rename_i h
    simp only [bind_result, say_result, Outcome.ok_bind, pure_result]
    unfold Licensecc.unbase64
    dsimp only
    rw [if_pos h]
  · rfl

theorem ofString_result (s : Bytes) : (ofString s).result = HwId.ofString s := by
  unfold ofString HwId.ofString
  simp only [bind_result, unbase64_result]
  cases Licensecc.unbase64 (HwId.replaceByte 45 10 s) with
  | throw e => rfl
  | ub => rfl
  | ok d =>
    simp only [Outcome.ok_bind]
    split
    · rfl
    · rename_i hno
      split
      · rename_i x h; simp only [Outcome.ok.injEq] at h; exact absurd h (hno _ _ _ _ _ _ _ _)
      · rfl
      · rename_i h; simp at h
      · rename_i h; simp at h

theorem validatePcSignature_result (m : Machine) (s : Bytes) : (validatePcSignature m s).result = Licensecc.validatePcSignature m s := by
  unfold validatePcSignature Licensecc.validatePcSignature
  dsimp only
  rw [← ofString_result]
  generalize hr : ((do
      let h ← ofString s
      let s ← quiet (getStrategy h.strategy)
      quiet (validateIdentifier m s h)) : Noisy EventType) = r
  have h : r.result = ((ofString s).result >>= fun a => getStrategy a.strategy >>= fun b => validateIdentifier m b a) := by
    rw [← hr]; simp
  rw [← h]
  cases hx : r.result with
  | ok a => simp [hx]
  | ub => simp [hx]
  | throw e =>
    dsimp only
    split <;> simp [hx]

theorem checkClient_result (w : World) (l : FullLicense) (r : Registry) : (checkClient w l r).result = Licensecc.checkClient w l r := by
  unfold checkClient Licensecc.checkClient
  cases SMap.find? kClient l.limits <;> simp [validatePcSignature_result]

theorem verifyLimits_result (cfg : Config) (w : World) (l : FullLicense) (r : Registry) (k : Nat) :
    (verifyLimits cfg w l r k).result = Licensecc.verifyLimits cfg w l r k := by
  unfold verifyLimits Licensecc.verifyLimits
  dsimp only
  split
  · simp only [bind_result, quiet_result]
    congr 1; funext ⟨r1, v⟩
    cases v
    · rfl
    · simp only [if_true, bind_result, quiet_result]
      congr 1; funext ⟨r1, v⟩
      cases v
      · rfl
      · simp [checkClient_result]
  · simp

theorem printForSign_result (b : Build) (l : FullLicense) : (printForSign b l).result = .ok l.printForSign := by
  unfold printForSign
  split <;> simp

theorem verifySignature_result (b : Build) (w : World) (l : FullLicense) (r : Registry) :
    (verifySignature b w l r).result = Licensecc.verifySignature w l r := by
  unfold verifySignature Licensecc.verifySignature
  simp [printForSign_result]

theorem judgeLoop_result (b : Build) (cfg : Config) (w : World) (caller : Option Caller) (ls : List FullLicense) :
    ∀ r k, (judgeLoop b cfg w caller r k ls).result = Licensecc.judgeLoop cfg w caller r k ls := by
  induction ls with
  | nil => intro r k; rfl
  | cons l ls ih =>
    intro r k
    simp only [judgeLoop, Licensecc.judgeLoop, bind_result, verifySignature_result]
    congr 1; funext ⟨r, good⟩
    simp only [quiet_result]
    congr 1; funext ⟨info, k⟩
    cases good
    · simp [ih]
    · simp [ih, verifyLimits_result]

theorem judge_result (b : Build) (cfg : Config) (w : World) (caller : Option Caller) (out : Option LicInfo) (r : Registry)
    (lics : List FullLicense) : (judge b cfg w caller out r lics).result = Licensecc.judge cfg w caller out r lics := by
  unfold judge Licensecc.judge
  cases lics with
  | nil => rfl
  | cons l ls =>
    simp only [bind_result, judgeLoop_result]
    congr 1; funext ⟨r, k, oks, errs⟩
    cases oks <;> rfl

theorem retrieveContent_result (w : World) (l : Locator) (b : Bool) (p : Bytes) :
    (retrieveContent w l b p).result = Licensecc.retrieveContent w l b p := by
  unfold retrieveContent Licensecc.retrieveContent
  cases l with
  | applicationFolder => rfl
  | environmentVarLocation => rfl
  | environmentVarData =>
    cases w.getenv locationVar with
    | none => rfl
    | some v => dsimp only; split <;> simp [unbase64_result]
  | externalDefinition loc =>
    dsimp only
    split
    · simp only [bind_result, quiet_result]
      congr 1; funext d
      split <;> simp [unbase64_result]
    · rfl

theorem readLocations_result (w : World) (f : Bytes) (l : Locator) (b : Bool) (ps : List Bytes) :
    ∀ r, (readLocations w f l b r ps).result = Licensecc.readLocations w f l b r ps := by
  induction ps with
  | nil => intro r; rfl
  | cons p ps ih =>
    intro r
    simp [readLocations, Licensecc.readLocations, retrieveContent_result, ih]

theorem readLocators_result (w : World) (f : Bytes) (ls : List Locator) :
    ∀ r, (readLocators w f r ls).result = Licensecc.readLocators w f r ls := by
  induction ls with
  | nil => intro r; rfl
  | cons l ls ih =>
    intro r
    simp [readLocators, Licensecc.readLocators, readLocations_result, ih]

theorem readLicenses_result (cfg : Config) (w : World) (hint : Option LicenseLocation) (f : Bytes) :
    (readLicenses cfg w hint f).result = Licensecc.readLicenses cfg w hint f := by
  unfold readLicenses Licensecc.readLicenses
  dsimp only
  split
  · rfl
  · simp only [bind_result, readLocators_result]
    congr 1; funext ⟨r, lics⟩
    dsimp only
    split <;> rfl

/-- **C71**: with what it writes, the model of `acquire_license` computes the same as without. -/
theorem C71_same (b : Build) (cfg : Config) (w : World) (caller : Option Caller) (hint : Option LicenseLocation) (out : Option LicInfo) :
    (acquire b cfg w caller hint out).result = Licensecc.acquire cfg w caller hint out := by
  unfold acquire Licensecc.acquire
  simp [readLicenses_result, judge_result]

/-! ## Hardware identifiers -/

theorem number_head {n : Nat} (hn : n ≠ 0) : (number 10 n).head? ≠ some 48 := by
  have key : ∀ fuel n, n < fuel → n ≠ 0 → ∃ d, d ≠ 48 ∧ (digitsRev 10 fuel n).getLast? = some d := by
    intro fuel
    induction fuel with
    | zero => intro n h; omega
    | succ fuel ih =>
      intro n h hn
      unfold digitsRev
      by_cases hb : n < 10
      · rw [if_pos hb]
        refine ⟨Inspector.digit n, ?_, rfl⟩
        have : ∀ d, d < 10 → d ≠ 0 → Inspector.digit d ≠ 48 := by decide
        exact this n hb hn
      · rw [if_neg hb]
        obtain ⟨d, h1, h2⟩ := ih (n / 10) (by omega) (by omega)
        refine ⟨d, h1, ?_⟩
        rw [List.getLast?_cons, h2]; rfl
  obtain ⟨d, h1, h2⟩ := key (n + 1) n (by omega) hn
  unfold number
  rw [List.head?_reverse, h2]
  simpa using h1

theorem identifierText_eq (s : Bytes) : (HwId.replaceByte 45 10 s).filter (fun b => !(b == 10)) = identifierText s := by
  unfold HwId.replaceByte identifierText
  induction s with
  | nil => rfl
  | cons c s ih =>
    rw [List.map_cons, List.filter_cons, List.filter_cons, ih]
    by_cases h : c = 45
    · subst h; simp
    · by_cases h' : c = 10
      · subst h'; simp
      · simp [h, h']

theorem paddings_eq {t : Bytes} (h : 2 ≤ t.length) : paddings t = padCount t := by
  obtain ⟨u, a, b, rfl⟩ : ∃ u a b, t = u ++ [a, b] := by
    refine ⟨t.take (t.length - 2), t[t.length - 2], t[t.length - 1], ?_⟩
    have h1 := List.take_append_drop (t.length - 2) t
    have h2 : t.drop (t.length - 2) = [t[t.length - 2], t[t.length - 1]] := by
      rw [List.drop_eq_getElem_cons (by omega)]
      congr 1
      have : t.length - 2 + 1 = t.length - 1 := by omega
      rw [this, List.drop_eq_getElem_cons (by omega)]
      congr 1
      rw [List.drop_eq_nil_iff]; omega
    rw [← h2, h1]
  have e1 : (u ++ [a, b]).drop ((u ++ [a, b]).length - 2) = [a, b] := by simp
  have e2 : (u ++ [a, b]).getLast? = some b := by simp
  have e3 : (u ++ [a, b]).dropLast.getLast? = some a := by
    rw [List.dropLast_append_of_ne_nil (by simp)]; simp
  unfold paddings padCount
  rw [e1, e2, e3]
  by_cases h1 : a = 61 <;> by_cases h2 : b = 61 <;> simp [h1, h2, List.count_cons]

/-- What is written about an identifier, if it can be decoded without leaving its text. -/
theorem ofString_said {s : Bytes} (hbig : (identifierText s).length < 2 ^ 63) (h : (ofString s).result ≠ .ub) :
    IdentifierSaid s (ofString s).said := by
  have ht := identifierText_eq s
  rw [ofString_result] at h
  unfold ofString
  have hunb : (unbase64 (HwId.replaceByte 45 10 s)).result = Licensecc.unbase64 (HwId.replaceByte 45 10 s) := unbase64_result _
  have ht2 : identifierText s = (HwId.replaceByte 45 10 s).filter (fun b => b ≠ 10) := by
    rw [← ht]; congr 1; funext b; by_cases hb : b = 10 <;> simp [hb]
  rcases C23_unbase64_outcome _ _ ht2 hbig with ⟨h1, h2⟩ | ⟨h1, h2⟩ | ⟨h1, _⟩ | ⟨d, h1, h2, h3, _, h4⟩
  · have hs : (unbase64 (HwId.replaceByte 45 10 s)).said = [(.out, tooShort)] := by
      unfold unbase64; rw [ht, if_pos h2]; rfl
    rw [bind_said_ok (hunb.trans h1), hs]
    exact .short h2
  · have hs : (unbase64 (HwId.replaceByte 45 10 s)).said = [] := by
      unfold unbase64; rw [ht, if_neg (by rw [h2]; decide)]; rfl
    rw [bind_said_stop (by intro x; rw [hunb, h1]; simp), hs]
    exact .equals h2
  · unfold HwId.ofString at h; rw [h1] at h; exact absurd rfl h
  · have hs : (unbase64 (HwId.replaceByte 45 10 s)).said = [] := by
      unfold unbase64; rw [ht, if_neg (by omega)]; rfl
    rw [bind_said_ok (hunb.trans h1), hs, List.nil_append]
    have hd : decodedSize (identifierText s) = d.length := by
      unfold decodedSize; rw [if_neg (by omega), paddings_eq h2, h4]
    split
    · rename_i a b c d e f g h
      exact .good (by rw [hd]; rfl)
    · rename_i hno
      have h8 : d.length ≠ 8 := by
        intro h8
        match d, h8 with
        | [a, b, c, d, e, f, g, h], _ => exact hno a b c d e f g h rfl
      rw [bind_said_ok (say_result _ _), say_said, quiet_said, List.append_nil]
      refine .wrong h2 (by intro he; rw [he] at h3; exact absurd h3 (by decide)) (by omega) ?_ (number_head ?_)
      · rw [hd]; exact C70_number (by omega) (by omega) _
      · have : padCount (identifierText s) ≤ 2 := by unfold padCount; split <;> split <;> omega
        omega

theorem validate_said (m : Machine) (s : Bytes) : (validatePcSignature m s).said = (ofString s).said := by
  unfold validatePcSignature
  dsimp only
  have h : ((do
      let h ← ofString s
      let s ← quiet (getStrategy h.strategy)
      quiet (validateIdentifier m s h)) : Noisy EventType).said = (ofString s).said := by
    cases hr : (ofString s).result with
    | ok a =>
      rw [bind_said_ok hr]
      cases hg : getStrategy a.strategy with
      | ok x => rw [bind_said_ok (quiet_result _)]; simp
      | throw e => rw [bind_said_stop (by intro x; simp [hg])]; simp
      | ub => rw [bind_said_stop (by intro x; simp [hg])]; simp
    | throw e => rw [bind_said_stop (by intro x; simp [hr])]
    | ub => rw [bind_said_stop (by intro x; simp [hr])]
  split
  · split <;> exact h
  · exact h

theorem validate_ub {m : Machine} {s : Bytes} (h : (validatePcSignature m s).result ≠ .ub) : (ofString s).result ≠ .ub := by
  rw [validatePcSignature_result] at h
  rw [ofString_result]
  intro hu
  apply h
  unfold Licensecc.validatePcSignature
  simp [hu]

/-! ## Judging a licence -/

theorem checkClient_said (w : World) (l : FullLicense) (r : Registry) :
    (checkClient w l r).said = match SMap.find? kClient l.limits with
      | none => []
      | some s => (ofString s).said := by
  unfold checkClient
  cases SMap.find? kClient l.limits with
  | none => rfl
  | some s =>
    dsimp only
    rw [← validate_said w.machine s]
    cases hr : (validatePcSignature w.machine s).result with
    | ok ev =>
      rw [bind_said_ok hr]
      cases hg : r.addEvent ev (some l.source) with
      | ok x => rw [bind_said_ok (quiet_result _)]; simp
      | throw e => rw [bind_said_stop (by intro x; simp)]; simp
      | ub => rw [bind_said_stop (by intro x; simp)]; simp
    | throw e => rw [bind_said_stop (by intro x; simp [hr])]
    | ub => rw [bind_said_stop (by intro x; simp [hr])]

/-- The identifier `s` of the licence is reached by the checks. -/
def Reaches (cfg : Config) (w : World) (l : FullLicense) (now : Int) (s : Bytes) : Prop :=
  l.magic = cfg.magic
  ∧ (∀ d, SMap.find? kExpiry l.limits = some d → ∃ t, secondsFromEpoch w.mktime d = .ok t ∧ now ≤ t)
  ∧ (∀ d, SMap.find? kBegin l.limits = some d → ∃ t, secondsFromEpoch w.mktime d = .ok t ∧ t ≤ now)
  ∧ SMap.find? kClient l.limits = some s

/-- The checks write nothing, or what is written about the identifier they reach. -/
theorem verifyLimits_said (cfg : Config) (w : World) (l : FullLicense) (r : Registry) (k : Nat) :
    (verifyLimits cfg w l r k).said = []
    ∨ ∃ s, Reaches cfg w l (w.clock k) s ∧ (verifyLimits cfg w l r k).said = (ofString s).said := by
  unfold verifyLimits
  dsimp only
  split
  · rename_i hm
    cases h1 : checkExpiry w (w.clock k) l r with
    | throw e => left; rw [bind_said_stop (by intro x; simp)]; rfl
    | ub => left; rw [bind_said_stop (by intro x; simp)]; rfl
    | ok x =>
      obtain ⟨r1, v1⟩ := x
      rw [bind_said_ok (quiet_result _)]
      cases v1 with
      | false => left; rfl
      | true =>
        simp only [quiet_said, List.nil_append, if_true]
        cases h2 : checkBegin w (w.clock k) l r1 with
        | throw e => left; rw [bind_said_stop (by intro x; simp)]; rfl
        | ub => left; rw [bind_said_stop (by intro x; simp)]; rfl
        | ok x =>
          obtain ⟨r2, v2⟩ := x
          rw [bind_said_ok (quiet_result _)]
          cases v2 with
          | false => left; rfl
          | true =>
            simp only [quiet_said, List.nil_append, if_true]
            have hs : (do
                let (r, v) ← checkClient w l r2
                return (r, k + 1, v) : Noisy (Registry × Nat × Bool)).said = (checkClient w l r2).said := by
              cases hc : (checkClient w l r2).result with
              | ok x => rw [bind_said_ok hc]; simp
              | throw e => rw [bind_said_stop (by intro x; simp [hc])]
              | ub => rw [bind_said_stop (by intro x; simp [hc])]
            rw [hs, checkClient_said]
            cases hk : SMap.find? kClient l.limits with
            | none => left; rfl
            | some s => right; exact ⟨s, ⟨hm, (checkExpiry_ok h1).mp rfl, (checkBegin_ok h2).mp rfl, hk⟩, rfl⟩
  · left
    cases r.addEvent .corrupted (some l.source) with
    | ok x => rw [bind_said_ok (quiet_result _)]; rfl
    | throw e => rw [bind_said_stop (by intro x; simp)]; rfl
    | ub => rw [bind_said_stop (by intro x; simp)]; rfl

/-- If they come to an end, the checks look at every identifier they reach. -/
theorem verifyLimits_reaches {cfg : Config} {w : World} {l : FullLicense} {r : Registry} {k : Nat} {x : Registry × Nat × Bool} {s : Bytes}
    (h : (verifyLimits cfg w l r k).result = .ok x) (hs : Reaches cfg w l (w.clock k) s) :
    (verifyLimits cfg w l r k).said = (ofString s).said ∧ (ofString s).result ≠ .ub := by
  obtain ⟨hm, he, hb, hc⟩ := hs
  unfold verifyLimits at h ⊢
  dsimp only at h ⊢
  rw [if_pos hm] at h ⊢
  simp only [bind_result, quiet_result] at h
  obtain ⟨⟨r1, v1⟩, h1, h⟩ := Outcome.bind_eq_ok.mp h
  rw [h1, bind_said_ok (quiet_result _)]
  have hv1 := (checkExpiry_ok h1).mpr he
  subst hv1
  simp only [if_true, bind_result, quiet_result, quiet_said, List.nil_append] at h ⊢
  obtain ⟨⟨r2, v2⟩, h2, h⟩ := Outcome.bind_eq_ok.mp h
  rw [h2, bind_said_ok (quiet_result _)]
  have hv2 := (checkBegin_ok h2).mpr hb
  subst hv2
  simp only [if_true, bind_result, quiet_result, quiet_said, List.nil_append] at h ⊢
  obtain ⟨⟨r3, v3⟩, h3, h⟩ := Outcome.bind_eq_ok.mp h
  rw [bind_said_ok h3, checkClient_said, hc]
  refine ⟨by simp, ?_⟩
  unfold checkClient at h3
  rw [hc] at h3
  simp only [bind_result, quiet_result] at h3
  obtain ⟨ev, h4, _⟩ := Outcome.bind_eq_ok.mp h3
  exact validate_ub (m := w.machine) (by rw [h4]; simp)

/-- What is written before the signature is known to be good or bad. -/
def signatureSaid (b : Build) (l : FullLicense) : Said :=
  (if b.debug then [(.out, b!"license to sign [" ++ l.printForSign ++ b!"]" ++ [10])] else []) ++ b.check l.printForSign l.signature

theorem verifySignature_said (b : Build) (w : World) (l : FullLicense) (r : Registry) :
    (verifySignature b w l r).said = signatureSaid b l := by
  unfold verifySignature
  rw [bind_said_ok (printForSign_result b l)]
  unfold signatureSaid
  have h1 : (printForSign b l).said = if b.debug then [(.out, b!"license to sign [" ++ l.printForSign ++ b!"]" ++ [10])] else [] := by
    unfold printForSign; split <;> rfl
  rw [h1]
  congr 1
  cases hv : w.verify l.printForSign l.signature with
  | ok g =>
    rw [bind_said_ok (rfl : (Noisy.mk (b.check l.printForSign l.signature) (Outcome.ok g)).result = .ok g)]
    cases r.addEvent (if g then .signatureVerified else .corrupted) (some l.source) with
    | ok x => rw [bind_said_ok (quiet_result _)]; simp
    | throw e => rw [bind_said_stop (by intro x; simp)]; simp
    | ub => rw [bind_said_stop (by intro x; simp)]; simp
  | throw e => rw [bind_said_stop (by intro x; simp)]
  | ub => rw [bind_said_stop (by intro x; simp)]

theorem reaches_iff {cfg : Config} {w : World} {caller : Option Caller} {f src text : Bytes} {l : FullLicense} {now : Int} {s : Bytes}
    (hl : IsLicence f src text l) :
    (w.verify l.printForSign l.signature = .ok true ∧ Reaches cfg w (withMagic caller l) now s)
    ↔ LooksAt cfg w (magicOf caller) f text now s := by
  have hm : (withMagic caller l).magic = magicOf caller := by
    cases caller <;> simp [withMagic, magicOf, hl.magic]
  have hlim : (withMagic caller l).limits = l.limits := rfl
  unfold Reaches
  rw [hm, hlim, ← signed_iff hl]
  constructor
  · rintro ⟨h1, h2, h3, h4, h5⟩
    exact ⟨complete_of_licence hl, h1, h2, fun d hd => h3 d ((hl.limits _ _).mpr hd), fun d hd => h4 d ((hl.limits _ _).mpr hd),
      (hl.limits _ _).mp h5⟩
  · rintro ⟨_, h1, h2, h3, h4, h5⟩
    exact ⟨h1, h2, fun d hd => h3 d ((hl.limits _ _).mp hd), fun d hd => h4 d ((hl.limits _ _).mp hd), (hl.limits _ _).mpr h5⟩

theorem signatureSaid_iff {b : Build} {caller : Option Caller} {f src text : Bytes} {l : FullLicense} (hl : IsLicence f src text l) :
    SignatureSaid b f text (signatureSaid b (withMagic caller l)) := by
  unfold signatureSaid
  have hp : (withMagic caller l).printForSign = l.printForSign := rfl
  have hg : (withMagic caller l).signature = l.signature := rfl
  rw [hp, hg]
  cases hd : b.debug with
  | false =>
    simpa [hd] using SignatureSaid.release (b := b) (complete_of_licence hl) hd hl.signature (signingData_of_licence hl)
  | true =>
    have := SignatureSaid.debug (b := b) (complete_of_licence hl) hd hl.signature (signingData_of_licence hl)
    rw [show (b!"]\n" : Bytes) = b!"]" ++ [10] from rfl] at this
    simpa using this

theorem judgeLoop_said {b : Build} {cfg : Config} {w : World} {caller : Option Caller} {f : Bytes} {ps : List (Bytes × Bytes)}
    {ls : List FullLicense} (hp : LicencesOf f ps ls) {K : Nat}
    (hbig : ∀ p ∈ ps, ∀ k ≤ K, ∀ s, LooksAt cfg w (magicOf caller) f p.2 (w.clock k) s → (identifierText s).length < 2 ^ 63) :
    ∀ {r k x}, (judgeLoop b cfg w caller r k ls).result = .ok x → x.2.1 ≤ K →
      TextsSaid b cfg w (magicOf caller) f K ps (judgeLoop b cfg w caller r k ls).said := by
  induction hp with
  | nil => intro r k x _ _; exact .nil
  | @skip src text ps ls hc _ ih =>
    intro r k x h hK
    have h2 := ih (fun p hp => hbig p (List.mem_cons_of_mem _ hp)) h hK
    have h3 : TextSaid b cfg w (magicOf caller) f text (w.clock 0) [] :=
      .unlooked (.none hc) (fun ⟨s, hs⟩ => hc hs.complete)
    simpa using TextsSaid.cons (src := src) (Nat.zero_le K) h3 h2
  | @take src text ps l ls hl _ ih =>
    intro r k x h hK
    have ih := @ih (fun p hp => hbig p (List.mem_cons_of_mem _ hp))
    have hbig := hbig _ (List.mem_cons_self ..)
    simp only [judgeLoop] at h ⊢
    rw [bind_result] at h
    obtain ⟨⟨r1, good⟩, h1, h⟩ := Outcome.bind_eq_ok.mp h
    rw [bind_said_ok h1, verifySignature_said]
    have hv : w.verify l.printForSign l.signature = .ok good := verifySignature_ok (by rw [verifySignature_result] at h1; exact h1)
    simp only [bind_result, quiet_result] at h
    obtain ⟨⟨i, k1⟩, h2, h⟩ := Outcome.bind_eq_ok.mp h
    simp only [h2]
    rw [bind_said_ok (quiet_result _), quiet_said, List.nil_append]
    have hsig := signatureSaid_iff (b := b) (caller := caller) hl
    simp only at h ⊢
    cases good with
    | false =>
      simp only [Bool.false_eq_true, if_false, bind_result] at h ⊢
      obtain ⟨⟨r3, k3, oks, errs⟩, h3, h⟩ := Outcome.bind_eq_ok.mp h
      simp only [pure_result, Outcome.ok.injEq] at h
      subst h
      rw [bind_said_ok h3]
      have hk1 : k1 ≤ k3 := by
        rw [judgeLoop_result] at h3
        exact judged_mono (judgeLoop_judged h3)
      refine .cons (k := 0) (Nat.zero_le _) (.unlooked hsig ?_) (by simpa using ih h3 hK)
      rintro ⟨s, hs⟩
      have := ((reaches_iff hl).mpr hs).1
      rw [hv] at this; simp at this
    | true =>
      simp only [if_true, bind_result] at h ⊢
      obtain ⟨⟨r2, k2, v⟩, h3, h⟩ := Outcome.bind_eq_ok.mp h
      rw [bind_said_ok h3, ← List.append_assoc]
      simp only [bind_result] at h
      obtain ⟨⟨r3, k3, oks, errs⟩, h4, h⟩ := Outcome.bind_eq_ok.mp h
      simp only [pure_result, Outcome.ok.injEq] at h
      subst h
      simp only
      rw [bind_said_ok h4]
      have hk2 : k2 = k1 + 1 := (verifyLimits_ok (by rw [verifyLimits_result] at h3; exact h3)).1
      have hk3 : k2 ≤ k3 := by
        rw [judgeLoop_result] at h4
        exact judged_mono (judgeLoop_judged h4)
      have hk1 : k1 ≤ K := by simp only at hK; omega
      refine .cons (k := k1) hk1 ?_ (by simpa using ih h4 hK)
      by_cases hr : ∃ s, Reaches cfg w (withMagic caller l) (w.clock k1) s
      · obtain ⟨s, hr⟩ := hr
        obtain ⟨e1, e2⟩ := verifyLimits_reaches h3 hr
        have hlook := (reaches_iff hl).mp ⟨hv, hr⟩
        rw [e1]
        exact .looked hsig hlook (ofString_said (hbig k1 hk1 s hlook) e2)
      · rcases verifyLimits_said cfg w (withMagic caller l) r1 k1 with h0 | ⟨s, h0, _⟩
        · rw [h0, List.append_nil]
          exact .unlooked hsig (fun ⟨s, hs⟩ => hr ⟨s, ((reaches_iff hl).mpr hs).2⟩)
        · exact absurd ⟨s, h0⟩ hr

/-! ## Reading the licences -/

theorem unbase64_said (s : Bytes) : (unbase64 s).said = if (counting s).length < 2 then [(.out, complaint)] else [] := by
  have h : s.filter (fun b => !(b == 10)) = counting s := by
    unfold counting; congr 1; funext b; by_cases hb : b = 10 <;> simp [hb]
  unfold unbase64
  rw [h]
  split
  · rfl
  · rfl

/-- A text too short to be decoded never becomes a licence text. -/
theorem decode_said {s : Bytes} {x : Bytes} (h : (do quiet (stringOfVector (← unbase64 s)) : Noisy Bytes).result = .ok x) :
    (do quiet (stringOfVector (← unbase64 s)) : Noisy Bytes).said = [] := by
  rw [bind_result] at h
  obtain ⟨d, h1, h2⟩ := Outcome.bind_eq_ok.mp h
  rw [bind_said_ok h1, quiet_said, List.append_nil, unbase64_said]
  split
  · rename_i hc
    have : (unbase64 s).result = .ok [] := by
      unfold unbase64
      have h : s.filter (fun b => !(b == 10)) = counting s := by
        unfold counting; congr 1; funext b; by_cases hb : b = 10 <;> simp [hb]
      rw [h, if_pos hc]; rfl
    rw [this] at h1
    simp only [Outcome.ok.injEq] at h1
    subst h1
    exact absurd h2 (by simp [stringOfVector])
  · rfl

theorem retrieveContent_said {w : World} {l : Locator} {b : Bool} {p x : Bytes} (h : (retrieveContent w l b p).result = .ok x) :
    (retrieveContent w l b p).said = [] := by
  unfold retrieveContent at h ⊢
  cases l with
  | applicationFolder => rfl
  | environmentVarLocation => rfl
  | environmentVarData =>
    cases hv : w.getenv locationVar with
    | none => simp [hv]
    | some v =>
      simp only [hv] at h ⊢
      split
      · rename_i hb; rw [if_pos hb] at h; exact decode_said h
      · rfl
  | externalDefinition loc =>
    dsimp only at h ⊢
    split
    · rename_i he
      rw [if_pos he, bind_result] at h
      obtain ⟨d, h1, h⟩ := Outcome.bind_eq_ok.mp h
      rw [bind_said_ok h1, quiet_said, List.nil_append]
      split
      · rename_i hk; rw [if_pos hk] at h; exact decode_said h
      · rfl
    · rfl

theorem readLocations_said {w : World} {f : Bytes} {l : Locator} {b : Bool} {ps : List Bytes} :
    ∀ {r x}, (readLocations w f l b r ps).result = .ok x → (readLocations w f l b r ps).said = [] := by
  induction ps with
  | nil => intro r x _; rfl
  | cons p ps ih =>
    intro r x h
    simp only [readLocations, bind_result] at h ⊢
    obtain ⟨c, h1, h⟩ := Outcome.bind_eq_ok.mp h
    rw [bind_said_ok h1, retrieveContent_said h1, List.nil_append]
    obtain ⟨⟨r1, lic⟩, h2, h⟩ := Outcome.bind_eq_ok.mp h
    rw [bind_said_ok h2, quiet_said, List.nil_append]
    simp only [bind_result] at h
    obtain ⟨⟨r2, lics⟩, h3, h⟩ := Outcome.bind_eq_ok.mp h
    simp only
    rw [bind_said_ok h3, ih h3]; rfl

theorem readLocators_said {w : World} {f : Bytes} {ls : List Locator} :
    ∀ {r x}, (readLocators w f r ls).result = .ok x → (readLocators w f r ls).said = [] := by
  induction ls with
  | nil => intro r x _; rfl
  | cons l ls ih =>
    intro r x h
    simp only [readLocators, bind_result] at h ⊢
    obtain ⟨⟨r1, locs, b⟩, h1, h⟩ := Outcome.bind_eq_ok.mp h
    rw [bind_said_ok h1, quiet_said, List.nil_append]
    simp only [bind_result] at h
    obtain ⟨⟨r2, lics⟩, h2, h⟩ := Outcome.bind_eq_ok.mp h
    simp only
    rw [bind_said_ok h2, readLocations_said h2, List.nil_append]
    simp only at h
    obtain ⟨⟨r3, lics'⟩, h3, h⟩ := Outcome.bind_eq_ok.mp h
    simp only
    rw [bind_said_ok h3, ih h3]; rfl

/-- Reading licences, if it comes to an end, writes nothing. -/
theorem readLicenses_said {cfg : Config} {w : World} {hint : Option LicenseLocation} {f : Bytes} {x : Registry × List FullLicense}
    (h : (readLicenses cfg w hint f).result = .ok x) : (readLicenses cfg w hint f).said = [] := by
  unfold readLicenses at h ⊢
  dsimp only at h ⊢
  split
  · rfl
  · rename_i hs
    rw [if_neg hs, bind_result] at h
    obtain ⟨⟨r, lics⟩, h1, h⟩ := Outcome.bind_eq_ok.mp h
    rw [bind_said_ok h1, readLocators_said h1]
    simp only
    split <;> rfl

/-- **C71**: if `acquire_license` returns, it wrote on the standard streams, text by text in the order in which the texts are located:
    in builds for debugging the data covered by the signature, in builds for Windows what the signature check writes, and for each
    hardware identifier that is looked at and does not stand for 8 bytes the number of bytes; and nothing else. -/
theorem C71_acquire {b : Build} {cfg : Config} {w : World} {caller : Option Caller} {hint : Option LicenseLocation} {out : Option LicInfo}
    {res : AcquireResult} {f : Bytes} (hf : FeatureIs cfg caller f) (h : (acquire b cfg w caller hint out).result = .ok res)
    (hbig : ∀ p ∈ located cfg w hint, ∀ k ≤ res.ticks, ∀ s, LooksAt cfg w (magicOf caller) f p.2 (w.clock k) s →
      (identifierText s).length < 2 ^ 63) :
    TextsSaid b cfg w (magicOf caller) f res.ticks (located cfg w hint) (acquire b cfg w caller hint out).said := by
  have h0 := h
  rw [C71_same] at h0
  obtain ⟨f', r, lics, es, hf', hr, hes, hc, _⟩ := acquire_cases h0
  obtain rfl : f = f' := featureIs_unique hf hf'
  obtain ⟨hl, _⟩ := licencesOf_located hes
  have hfo : featureOf cfg caller = .ok f := (featureOf_iff).mpr hf
  have hr' : (readLicenses cfg w hint f).result = .ok (r, lics) := by rw [readLicenses_result, hr]
  unfold acquire at h ⊢
  rw [hfo] at h ⊢
  rw [bind_said_ok (quiet_result _), quiet_said, List.nil_append, bind_said_ok hr', readLicenses_said hr', List.nil_append]
  simp only [bind_result, quiet_result, Outcome.ok_bind, hr'] at h
  simp only
  unfold judge at h ⊢
  rcases hc with ⟨rfl, _⟩ | ⟨hne, vs, es', oks, errs, r1, _, hj, _⟩
  · simp only [quiet_said]
    have h1 : (judgeLoop b cfg w caller r 0 []).result = .ok (r, 0, [], []) := rfl
    exact judgeLoop_said hl hbig h1 (Nat.zero_le _)
  · have hj' : (judgeLoop b cfg w caller r 0 lics).result = .ok (r1, res.ticks, oks, errs) := by rw [judgeLoop_result, hj]
    have h2 := judgeLoop_said hl hbig hj' (Nat.le_refl _)
    cases lics with
    | nil => exact absurd rfl hne
    | cons l ls =>
      simp only
      rw [bind_said_ok hj']
      cases oks <;> simpa using h2

/-! ## Silence, whatever the outcome -/

theorem bind_silent {α β : Type} {x : Noisy α} {g : α → Noisy β} (h : x.said = []) (hg : ∀ a, x.result = .ok a → (g a).said = []) :
    (x >>= g).said = [] := by
  cases hr : x.result with
  | ok a => rw [bind_said_ok hr, h, hg a hr]; rfl
  | throw e => rw [bind_said_stop (by intro y; simp [hr]), h]
  | ub => rw [bind_said_stop (by intro y; simp [hr]), h]

theorem ofString_silent {s : Bytes} (h : decodedSize (identifierText s) = 8) : (ofString s).said = [] := by
  have hbig : (identifierText s).length < 2 ^ 63 := by
    unfold decodedSize at h
    split at h
    · omega
    · have : paddings (identifierText s) ≤ 2 := by
        unfold paddings
        refine Nat.le_trans (List.count_le_length) ?_
        rw [List.length_drop]; omega
      omega
  by_cases hu : (ofString s).result = .ub
  · have hge : ¬ (identifierText s).length < 2 := by
      intro hlt; unfold decodedSize at h; rw [if_pos hlt] at h; omega
    have ht := identifierText_eq s
    have hq : unbase64 (HwId.replaceByte 45 10 s) = quiet (Licensecc.unbase64 (HwId.replaceByte 45 10 s)) := by
      unfold unbase64; rw [ht, if_neg hge]
    unfold ofString at hu ⊢
    rw [hq] at hu ⊢
    refine bind_silent rfl ?_
    intro d hd
    simp only [quiet_result] at hd
    split
    · rfl
    · rename_i hno
      exfalso
      rw [bind_result, quiet_result, hd] at hu
      simp at hu
  · have hs := ofString_said hbig hu
    generalize hl : (ofString s).said = l at hs
    cases hs with
    | good _ => rfl
    | short h' => unfold decodedSize at h; rw [if_pos h'] at h; omega
    | equals _ => rfl
    | wrong _ _ h' => exact absurd h h'

theorem judgeLoop_silent {b : Build} {cfg : Config} {w : World} {caller : Option Caller} {f : Bytes} {ps : List (Bytes × Bytes)}
    {ls : List FullLicense} (hp : LicencesOf f ps ls) (hd : b.debug = false)
    (hcheck : ∀ p ∈ ps, ∀ data sig, lastValue (b!"sig") (entriesFor f p.2) = some sig → SigningData f (entriesFor f p.2) data → b.check data sig = [])
    (hid : ∀ p ∈ ps, ∀ k s, LooksAt cfg w (magicOf caller) f p.2 (w.clock k) s → decodedSize (identifierText s) = 8) :
    ∀ r k, (judgeLoop b cfg w caller r k ls).said = [] := by
  induction hp with
  | nil => intro r k; rfl
  | @skip src text ps ls hc _ ih =>
    exact ih (fun p hp => hcheck p (List.mem_cons_of_mem _ hp)) (fun p hp => hid p (List.mem_cons_of_mem _ hp))
  | @take src text ps l ls hl _ ih =>
    intro r k
    have ih := @ih (fun p hp => hcheck p (List.mem_cons_of_mem _ hp)) (fun p hp => hid p (List.mem_cons_of_mem _ hp))
    have hid := hid _ (List.mem_cons_self ..)
    have hcheck := hcheck _ (List.mem_cons_self ..) l.printForSign l.signature hl.signature (signingData_of_licence hl)
    simp only [judgeLoop]
    refine bind_silent ?_ ?_
    · rw [verifySignature_said]; unfold signatureSaid; rw [hd]
      exact hcheck
    · rintro ⟨r1, good⟩ h1
      have hv : w.verify l.printForSign l.signature = .ok good := verifySignature_ok (by rw [verifySignature_result] at h1; exact h1)
      refine bind_silent rfl ?_
      rintro ⟨i, k1⟩ h2
      simp only
      cases good with
      | false =>
        simp only [Bool.false_eq_true, if_false]
        exact bind_silent (ih _ _) (fun _ _ => rfl)
      | true =>
        simp only [if_true]
        refine bind_silent ?_ ?_
        · rcases verifyLimits_said cfg w (withMagic caller l) r1 k1 with h0 | ⟨s, h0, h3⟩
          · exact h0
          · rw [h3]; exact ofString_silent (hid k1 s ((reaches_iff hl).mp ⟨hv, h0⟩))
        · rintro ⟨r2, k2, v⟩ _
          exact bind_silent (ih _ _) (fun _ _ => rfl)

theorem retrieveContent_silent {cfg : Config} {w : World} {hint : Option LicenseLocation} {l : Locator} {b : Bool} {p : Bytes}
    (hl : l ∈ activeStrategies cfg hint) (he : EncodedTexts cfg w hint)
    (hb : b = true → l = .environmentVarData → ∃ dat, w.getenv (b!"LICENSE_DATA") = some dat ∧ identifyFormat dat = .base64) :
    (retrieveContent w l b p).said = [] := by
  obtain ⟨he1, he2⟩ := he
  unfold retrieveContent
  cases l with
  | applicationFolder => rfl
  | environmentVarLocation => rfl
  | environmentVarData =>
    cases hv : w.getenv locationVar with
    | none => rfl
    | some v =>
      simp only
      split
      · rename_i hbt
        obtain ⟨dat, h1, h2⟩ := hb hbt rfl
        have hw : cfg.withEnvVar = true := by
          rcases mem_activeStrategies.mp hl with ⟨_, h⟩ | ⟨h, _⟩ | ⟨_, _, h⟩
          · simp at h
          · exact h
          · simp at h
        have := he2 dat v hw h1 h2 hv
        refine bind_silent ?_ (fun _ _ => rfl)
        rw [unbase64_said, if_neg (by omega)]
      · rfl
  | externalDefinition loc =>
    have hw : hint = some loc := by
      rcases mem_activeStrategies.mp hl with ⟨_, h⟩ | ⟨_, h⟩ | ⟨_, h1, h⟩
      · simp at h
      · simp at h
      · simp only [Locator.externalDefinition.injEq] at h; rw [h1, h]
    dsimp only
    split
    · refine bind_silent rfl ?_
      intro d hd
      split
      · rename_i hk
        have := he1 loc d hw hk (boundedString_iff.mp hd)
        refine bind_silent ?_ (fun _ _ => rfl)
        rw [unbase64_said, if_neg (by omega)]
      · rfl
    · rfl

theorem locations_data {w : World} {r r' : Registry} {locs : List Bytes}
    (h : licenseLocations w .environmentVarData r = .ok (r', locs, true)) :
    ∃ dat, w.getenv (b!"LICENSE_DATA") = some dat ∧ identifyFormat dat = .base64 := by
  unfold licenseLocations at h
  simp only at h
  split at h
  · rename_i c v hv
    obtain ⟨r1, _, h⟩ := Outcome.bind_eq_ok.mp h
    split at h
    · obtain ⟨r2, _, h⟩ := Outcome.bind_eq_ok.mp h; simp at h
    · rename_i hb; exact ⟨_, hv, hb⟩
    · simp at h
  · obtain ⟨r2, _, h⟩ := Outcome.bind_eq_ok.mp h; simp at h

theorem readLicenses_silent {cfg : Config} {w : World} {hint : Option LicenseLocation} (f : Bytes) (he : EncodedTexts cfg w hint) :
    (readLicenses cfg w hint f).said = [] := by
  have key1 : ∀ (l : Locator) (b : Bool), (∀ p, (retrieveContent w l b p).said = []) → ∀ ps r, (readLocations w f l b r ps).said = [] := by
    intro l b h ps
    induction ps with
    | nil => intro r; rfl
    | cons p ps ih =>
      intro r
      simp only [readLocations]
      refine bind_silent (h p) ?_
      intro c _
      refine bind_silent rfl ?_
      rintro ⟨r1, lic⟩ _
      exact bind_silent (ih _) (fun _ _ => rfl)
  have key2 : ∀ ls : List Locator, (∀ l ∈ ls, l ∈ activeStrategies cfg hint) → ∀ r, (readLocators w f r ls).said = [] := by
    intro ls
    induction ls with
    | nil => intro _ r; rfl
    | cons l ls ih =>
      intro hl r
      simp only [readLocators]
      refine bind_silent rfl ?_
      rintro ⟨r1, locs, b⟩ h1
      refine bind_silent (key1 l b ?_ _ _) ?_
      · intro p
        refine retrieveContent_silent (hl l (List.mem_cons_self ..)) he ?_
        rintro rfl rfl
        exact locations_data h1
      · rintro ⟨r2, lics⟩ _
        exact bind_silent (ih (fun l hl' => hl l (List.mem_cons_of_mem _ hl')) _) (fun _ _ => rfl)
  unfold readLicenses
  dsimp only
  split
  · rfl
  · refine bind_silent (key2 _ (fun _ h => h) _) ?_
    rintro ⟨r, lics⟩ _
    simp only
    split <;> rfl

/-- Silence if the system's signature check is silent. -/
theorem acquire_silent {b : Build} {cfg : Config} {w : World} {caller : Option Caller} {hint : Option LicenseLocation}
    (out : Option LicInfo) (hd : b.debug = false) (he : EncodedTexts cfg w hint)
    (hcheck : ∀ f p data sig, FeatureIs cfg caller f → p ∈ located cfg w hint → lastValue (b!"sig") (entriesFor f p.2) = some sig →
      SigningData f (entriesFor f p.2) data → b.check data sig = [])
    (hid : ∀ f p k s, FeatureIs cfg caller f → p ∈ located cfg w hint → LooksAt cfg w (magicOf caller) f p.2 (w.clock k) s →
      decodedSize (identifierText s) = 8) :
    (acquire b cfg w caller hint out).said = [] := by
  unfold acquire
  refine bind_silent rfl ?_
  intro f hf
  simp only [quiet_result] at hf
  have hf' := featureOf_iff.mp hf
  refine bind_silent (readLicenses_silent f he) ?_
  rintro ⟨r, lics⟩ hr
  rw [readLicenses_result] at hr
  obtain ⟨es, r0, _, hes, _⟩ := readLicenses_adds hr
  obtain ⟨hl, _⟩ := licencesOf_located hes
  have hj := judgeLoop_silent hl hd (fun p hp data sig => hcheck f p data sig hf' hp) (fun p hp k s => hid f p k s hf' hp)
  simp only
  unfold judge
  cases lics with
  | nil => rfl
  | cons l ls =>
    simp only
    refine bind_silent (hj _ _) ?_
    rintro ⟨r1, k, oks, errs⟩ _
    cases oks <;> rfl

/-- **C71**: a release build on Linux writes nothing in `acquire_license`, whether the call returns, throws or becomes undefined, if
    the encoded licence text, if any, has two characters and each hardware identifier that is looked at stands for 8 bytes. -/
theorem C71_silent {cfg : Config} {w : World} {caller : Option Caller} {hint : Option LicenseLocation} (out : Option LicInfo)
    (he : EncodedTexts cfg w hint)
    (hid : ∀ f p k s, FeatureIs cfg caller f → p ∈ located cfg w hint → LooksAt cfg w (magicOf caller) f p.2 (w.clock k) s →
      decodedSize (identifierText s) = 8) :
    (acquire (linuxBuild false) cfg w caller hint out).said = [] :=
  acquire_silent out rfl he (fun _ _ _ _ _ _ _ _ => rfl) hid

/-! ## Windows -/

open Spec.Der

theorem readLength_result (p : Bytes) : (readLength p).result = Win.readLength p := by
  unfold readLength Win.readLength
  cases p <;> rfl

theorem readSequence_result (p : Bytes) : (readSequence p).result = Win.readSequence p := by
  unfold readSequence Win.readSequence
  simp only [bind_result, quiet_result]
  congr 1; funext ⟨t, q⟩
  simp only
  split
  · rfl
  · simp [readLength_result]

theorem readInteger_result (p loc : Bytes) : (readInteger p loc).result = Win.readInteger p loc := by
  unfold readInteger Win.readInteger
  simp only [bind_result, quiet_result]
  congr 1; funext ⟨t, q⟩
  simp only
  split
  · rfl
  · simp [readLength_result]

theorem readKey_result (k m e : Bytes) : (readKey k m e).result = Win.readKey k m e := by
  unfold readKey Win.readKey
  simp [readSequence_result, readInteger_result]

theorem verifyHash_result (c : Win.Bcrypt) (h sig : Bytes) : (verifyHash c h sig).result = c.verifyHash h sig := by
  unfold verifyHash Win.Bcrypt.verifyHash
  simp only [bind_result, unbase64_result]
  congr 1; funext d
  split
  · rfl
  · split
    · rfl
    · simp only [bind_result, readKey_result]
      congr 1; funext ⟨m, e⟩
      simp only
      split <;> rfl

/-- **C71**: with what it writes, the model of the signature check of Windows computes the same as without. -/
theorem C71_windows_same (c : Win.Bcrypt) (data sig : Bytes) : (verify c data sig).result = c.verify data sig := by
  unfold verify Win.Bcrypt.verify
  repeat' (split; rfl)
  cases c.hash data with
  | none => rfl
  | some h => exact verifyHash_result ..

theorem top_bit (x : UInt8) : number 10 (x &&& 0x80).toNat = if 128 ≤ x.toNat then b!"128" else b!"0" :=
  forall_uint8 (P := fun x => number 10 (x &&& 0x80).toNat = if 128 ≤ x.toNat then b!"128" else b!"0") (by decide +kernel) x

/-- What `read_length` writes. -/
def lengthLine (n : Nat) : Stream × Bytes := (.out, if n < 128 then b!"0\n" else b!"128\n")

theorem readLength_said (n : Nat) (r : Bytes) : (readLength (lengthOctets n ++ r)).said = [lengthLine n] := by
  unfold lengthOctets lengthLine readLength
  by_cases h1 : n < 128
  · rw [if_pos h1, if_pos h1]
    simp only [List.cons_append, List.nil_append, Win.next]
    rw [bind_said_ok (quiet_result _)]
    simp only
    rw [bind_said_ok (say_result _ _), top_bit, if_neg (by rw [Win.ofNat_toNat (by omega)]; omega)]
    rfl
  · rw [if_neg h1, if_neg h1]
    by_cases h2 : n < 256
    · rw [if_pos h2]; rfl
    · rw [if_neg h2]; rfl

theorem readSequence_said (m e : Bytes) : (readSequence (publicKey m e)).said = [lengthLine (integer m ++ integer e).length] := by
  unfold publicKey readSequence
  simp only [List.cons_append, Win.next]
  rw [bind_said_ok (quiet_result _)]
  simp only
  rw [if_neg (by decide)]
  have h := readLength_said (integer m ++ integer e).length (integer m ++ integer e)
  cases hr : (readLength (lengthOctets (integer m ++ integer e).length ++ (integer m ++ integer e))).result with
  | ok x => rw [bind_said_ok hr, h]; rfl
  | throw x => rw [bind_said_stop (by intro y; rw [hr]; simp), h]; rfl
  | ub => rw [bind_said_stop (by intro y; rw [hr]; simp), h]; rfl

theorem readInteger_said (n r loc : Bytes) : (readInteger (integer n ++ r) loc).said = [lengthLine (intContent n).length] := by
  unfold integer readInteger
  simp only [List.cons_append, Win.next]
  rw [bind_said_ok (quiet_result _)]
  simp only
  rw [if_neg (by decide), List.append_assoc]
  have h := readLength_said (intContent n).length (intContent n ++ r)
  cases hr : (readLength (lengthOctets (intContent n).length ++ (intContent n ++ r))).result with
  | ok x => rw [bind_said_ok hr, h]; rfl
  | throw x => rw [bind_said_stop (by intro y; rw [hr]; simp), h]; rfl
  | ub => rw [bind_said_stop (by intro y; rw [hr]; simp), h]; rfl

theorem intContent_length (n : Bytes) : n.length ≤ (intContent n).length ∧ (intContent n).length ≤ n.length + 1 := by
  unfold intContent; split <;> simp

theorem readKey_said {m e oldM oldE : Bytes} (hm : Bytewide m 128) (he : Minimal e) (hel : e.length = 3) (h1 : oldM.length = 128)
    (h2 : oldE.length = 3) : (readKey (publicKey m e) oldM oldE).said = keyLines := by
  have hml := hm.1
  have hmm : Minimal m := by unfold Minimal; have := hm.2; omega
  have c1 := intContent_length m
  have c2 := intContent_length e
  unfold readKey
  rw [bind_said_ok ((readSequence_result _).trans (Win.readSequence_key m e (by omega))), readSequence_said]
  rw [bind_said_ok ((readInteger_result _ _).trans (Win.integer_short (location := oldM) hmm (by omega) (by omega) (integer e))), readInteger_said]
  have h3 := Win.integer_short (n := e) (location := oldE) he (by omega) (by omega) []
  rw [List.append_nil] at h3
  have h4 := readInteger_said e [] oldE
  rw [List.append_nil] at h4
  simp only
  rw [bind_said_ok ((readInteger_result _ _).trans h3), h4]
  have e1 : lengthLine (integer m ++ integer e).length = (.out, b!"128\n") := by
    unfold lengthLine; rw [if_neg]
    have : m.length ≤ (integer m).length := by unfold integer; simp; omega
    rw [List.length_append]; omega
  have e2 : lengthLine (intContent m).length = (.out, b!"128\n") := by unfold lengthLine; rw [if_neg (by omega)]
  have e3 : lengthLine (intContent e).length = (.out, b!"0\n") := by unfold lengthLine; rw [if_pos (by omega)]
  rw [e1, e2, e3]
  rfl

/-- Keys of 2048, 3072, ... bits: two lines. -/
theorem readKey_said_longer {m e oldM oldE : Bytes} {k : Nat} (hk : 2 ≤ k) (hm : Bytewide m (128 * k))
    (hlen : m.length + e.length < 65000) (h1 : oldM.length = 128) :
    (readKey (publicKey m e) oldM oldE).said = [(.out, b!"128\n"), (.out, b!"128\n")] := by
  obtain ⟨hml, hmt⟩ := hm
  have c1 := intContent_length m
  have hr : Win.readInteger (integer m ++ integer e) oldM = .ok (oldM, m ++ integer e) := by
    unfold integer Win.readInteger
    simp only [List.cons_append, Win.next, Outcome.ok_bind]
    rw [if_neg (by decide)]
    have hc : (intContent m).length = 128 * k + 1 := by unfold intContent; rw [if_pos hmt]; simp [hml]
    rw [List.append_assoc, hc, Win.readLength_octets _ (by omega), if_neg (by omega)]
    simp only [Outcome.ok_bind]
    rw [show intContent m = 0 :: m from if_pos hmt]
    simp only [List.cons_append, Win.next, Outcome.ok_bind, if_true]
    have h3 : 256 ≤ (128 * k + 1) % 256 * 256 + (128 * k + 1) / 256 := by omega
    have h4 : ∀ x, 256 ≤ x → 128 < Win.decrement x := by
      intro x hx
      rw [show Win.decrement x = x - 1 from if_neg (by omega)]; omega
    rw [if_pos (by rw [h1]; exact h4 _ h3)]
  unfold readKey
  rw [bind_said_ok ((readSequence_result _).trans (Win.readSequence_key m e hlen)), readSequence_said]
  rw [bind_said_ok ((readInteger_result _ _).trans hr), readInteger_said]
  have e1 : lengthLine (integer m ++ integer e).length = (.out, b!"128\n") := by
    unfold lengthLine; rw [if_neg]
    have : m.length ≤ (integer m).length := by unfold integer; simp; omega
    rw [List.length_append]; omega
  have e2 : lengthLine (intContent m).length = (.out, b!"128\n") := by unfold lengthLine; rw [if_neg (by omega)]
  rw [e1, e2]
  cases m with
  | nil => simp only [List.length_nil] at hml; omega
  | cons a m =>
    simp only [List.headD_cons] at hmt
    have ha : a ≠ 2 := by rintro rfl; simp at hmt
    simp only
    unfold readInteger
    simp only [List.cons_append, Win.next]
    rw [bind_said_ok (x := (quiet (Outcome.ok (a, m ++ integer e)) >>= _)) (a := (oldE, m ++ integer e))]
    · rw [bind_said_ok (quiet_result _)]
      simp [ha]
    · simp [ha]

open Classical in
theorem verifyHash_said {c : Win.Bcrypt} {keyed : Said} (hk : (readKey c.publicKey c.oldModulus c.oldExponent).said = keyed)
    (h sig : Bytes) : (verifyHash c h sig).said =
      if (counting sig).length < 2 then [(.out, complaint)]
      else if (∃ d, Licensecc.unbase64 sig = .ok d ∧ d ≠ []) ∧ c.rsaProvider = true then keyed else [] := by
  unfold verifyHash
  have hu := unbase64_said sig
  have hres := unbase64_result sig
  by_cases hs : (counting sig).length < 2
  · rw [if_pos hs] at hu ⊢
    have : (unbase64 sig).result = .ok [] := by
      unfold unbase64
      have h : sig.filter (fun b => !(b == 10)) = counting sig := by
        unfold counting; congr 1; funext b; by_cases hb : b = 10 <;> simp [hb]
      rw [h, if_pos hs]; rfl
    rw [bind_said_ok this, hu]; rfl
  · rw [if_neg hs] at hu ⊢
    cases hd : Licensecc.unbase64 sig with
    | throw e => rw [bind_said_stop (by intro y; simp [hres, hd]), hu, if_neg (by simp)]
    | ub => rw [bind_said_stop (by intro y; simp [hres, hd]), hu, if_neg (by simp)]
    | ok d =>
      rw [bind_said_ok (hres.trans hd), hu, List.nil_append]
      by_cases h0 : d.length = 0
      · rw [if_pos h0, if_neg]
        · rfl
        · rintro ⟨⟨d', h1, h2⟩, _⟩
          simp only [Outcome.ok.injEq] at h1; subst h1
          exact h2 (List.length_eq_zero_iff.mp h0)
      · rw [if_neg h0]
        have hne : d ≠ [] := fun hd => h0 (by rw [hd]; rfl)
        cases hp : c.rsaProvider with
        | false => rw [if_pos rfl, if_neg (by simp)]; rfl
        | true =>
          rw [if_neg (by simp), if_pos ⟨⟨d, rfl, hne⟩, rfl⟩, ← hk]
          cases hr : (readKey c.publicKey c.oldModulus c.oldExponent).result with
          | ok x =>
            rw [bind_said_ok hr]
            simp only
            split <;> simp
          | throw e => rw [bind_said_stop (by intro y; simp [hr])]
          | ub => rw [bind_said_stop (by intro y; simp [hr])]

open Classical in
theorem verify_said {c : Win.Bcrypt} {keyed : Said} (hk : (readKey c.publicKey c.oldModulus c.oldExponent).said = keyed)
    (data sig : Bytes) :
    (Hashes c data ∧ (counting sig).length < 2 ∧ (verify c data sig).said = [(.out, complaint)])
    ∨ (ReadsKey c data sig ∧ 2 ≤ (counting sig).length ∧ (verify c data sig).said = keyed)
    ∨ (¬ (Hashes c data ∧ (counting sig).length < 2) ∧ ¬ ReadsKey c data sig ∧ (verify c data sig).said = []) := by
  have hshort : (counting sig).length < 2 → Licensecc.unbase64 sig = .ok [] := by
    intro hs
    rw [← unbase64_result]
    unfold unbase64
    have h : sig.filter (fun b => !(b == 10)) = counting sig := by
      unfold counting; congr 1; funext b; by_cases hb : b = 10 <;> simp [hb]
    rw [h, if_pos hs]; rfl
  by_cases hh : Hashes c data
  · obtain ⟨h1, h2, h3, h4, h, h5⟩ := hh
    have hv : verify c data sig = verifyHash c h sig := by
      unfold verify; simp [h1, h2, h3, h4, h5]
    rw [hv, verifyHash_said hk]
    by_cases hs : (counting sig).length < 2
    · left; exact ⟨⟨h1, h2, h3, h4, h, h5⟩, hs, if_pos hs⟩
    · right
      rw [if_neg hs]
      by_cases hr : (∃ d, Licensecc.unbase64 sig = .ok d ∧ d ≠ []) ∧ c.rsaProvider = true
      · left; exact ⟨⟨⟨h1, h2, h3, h4, h, h5⟩, hr.1, hr.2⟩, by omega, if_pos hr⟩
      · right; exact ⟨fun x => hs x.2, fun x => hr ⟨x.decodes, x.provider⟩, if_neg hr⟩
  · right; right
    refine ⟨fun x => hh x.1, fun x => hh x.hashes, ?_⟩
    unfold verify
    cases h1 : c.hashProvider with
    | false => rfl
    | true =>
      cases h2 : c.properties with
      | false => rfl
      | true =>
        cases h3 : c.allocated with
        | false => rfl
        | true =>
          cases h4 : c.hashCreated with
          | false => rfl
          | true =>
            cases h5 : c.hash data with
            | none => rfl
            | some h => exact absurd ⟨h1, h2, h3, h4, h, h5⟩ hh

/-- **C71**: on Windows each signature check with a key of 1024 bits writes three numbers on the standard output, in release builds
    too; and only the complaint if the signature has fewer than two characters; and nothing if the system fails before. -/
theorem C71_windows {c : Win.Bcrypt} (hc : c.Sized) {m e : Bytes} (hm : Bytewide m 128) (he : Minimal e) (hel : e.length = 3)
    (hk : c.publicKey = publicKey m e) (data sig : Bytes) :
    (Hashes c data ∧ (counting sig).length < 2 ∧ (verify c data sig).said = [(.out, complaint)])
    ∨ (ReadsKey c data sig ∧ 2 ≤ (counting sig).length ∧ (verify c data sig).said = keyLines)
    ∨ (¬ (Hashes c data ∧ (counting sig).length < 2) ∧ ¬ ReadsKey c data sig ∧ (verify c data sig).said = []) :=
  verify_said (by rw [hk]; exact readKey_said hm he hel hc.1 hc.2) data sig

/-- **C71**: with longer keys the third number is missing, as nothing of the key is read. -/
theorem C71_windows_longer {c : Win.Bcrypt} (hc : c.Sized) {m e : Bytes} {k : Nat} (hk2 : 2 ≤ k) (hm : Bytewide m (128 * k))
    (hlen : m.length + e.length < 65000) (hk : c.publicKey = publicKey m e) {data sig : Bytes} (hr : ReadsKey c data sig)
    (hs : 2 ≤ (counting sig).length) : (verify c data sig).said = [(.out, b!"128\n"), (.out, b!"128\n")] := by
  rcases verify_said (c := c) (keyed := [(.out, b!"128\n"), (.out, b!"128\n")])
      (by rw [hk]; exact readKey_said_longer hk2 hm hlen hc.1) data sig with ⟨_, h, _⟩ | ⟨_, _, h⟩ | ⟨_, h, _⟩
  · omega
  · exact h
  · exact absurd hr h

/-! ## identify_pc -/

/-- **C71**: `identify_pc` computes the same with what it writes. -/
theorem C71_identify_same (debug : Bool) (what : Bytes) (m : Machine) (strategy : Int) (buf : Option Bytes) (bufSize : Nat) :
    (identifyPc debug what m strategy buf bufSize).result = Licensecc.identifyPc m strategy buf bufSize := by
  unfold identifyPc Licensecc.identifyPc
  cases buf with
  | none => rfl
  | some mem =>
    simp only
    split
    · cases generateUserPcSignature m strategy with
      | ub => rfl
      | throw e =>
        simp only [bind_result, quiet_result, Machine.logged]
        cases debug <;> simp <;> split <;> simp
      | ok id =>
        simp only [bind_result, quiet_result]
        cases mstrlcpy mem (id ++ [0]) bufSize with
        | ok x => rfl
        | throw e => rfl
        | ub => rfl
    · rfl

/-- **C71**: `identify_pc` writes something only in builds for debugging, when it cannot generate an identifier although the buffer
    has room for one; then one line on the standard error. -/
theorem C71_identify {debug : Bool} {what : Bytes} {m : Machine} {strategy : Int} {buf : Option Bytes} {bufSize : Nat}
    {res : IdentifyResult} (h : Licensecc.identifyPc m strategy buf bufSize = .ok res) :
    (identifyPc debug what m strategy buf bufSize).said =
      if debug = true ∧ buf.isSome ∧ 20 ≤ bufSize ∧ res.ret = false then [(.err, b!"Error occurred in identify_pc: " ++ what ++ b!"\n")]
      else [] := by
  rw [← C71_identify_same debug what] at h
  unfold identifyPc at h ⊢
  cases buf with
  | none => simp
  | some mem =>
    simp only at h ⊢
    split
    · rename_i hb
      rw [if_pos hb] at h
      cases hg : generateUserPcSignature m strategy with
      | ub => rw [hg] at h; simp at h
      | throw e =>
        rw [hg] at h
        simp only [bind_result, quiet_result] at h
        obtain ⟨_, h1, h⟩ := Outcome.bind_eq_ok.mp h
        simp only
        rw [bind_said_ok h1]
        cases debug with
        | false => simp
        | true =>
          simp only [if_true, bind_result, say_result, Outcome.ok_bind, pure_result, Outcome.ok.injEq] at h
          subst h
          simp only [if_true]
          rw [bind_said_ok (say_result _ _), if_pos (by simp; omega)]
          simp
      | ok id =>
        rw [hg] at h
        simp only [bind_result, quiet_result] at h
        obtain ⟨⟨mem', n⟩, h1, h⟩ := Outcome.bind_eq_ok.mp h
        simp only [pure_result, Outcome.ok.injEq] at h
        subst h
        simp only
        rw [bind_said_ok h1]
        simp
    · rename_i hb
      rw [if_neg]
      · rfl
      · rintro ⟨_, _, h, _⟩; omega

/-! ## lccinspector -/

/-- The pieces written by the library, each followed by the line of lccinspector about that call. -/
def interleaved (ps : List (Said × (Stream × Bytes))) : Said := ps.flatMap fun p => p.1 ++ [(p.2.1, p.2.2 ++ b!"\n")]

theorem sectionLines_said {b : Build} {cfg : Config} {r : Run} {loc : LicenseLocation} {ss : List (Bytes × Nat)} :
    ∀ {n lines}, Inspector.sectionLines cfg r loc n ss = .ok lines →
    ∃ ps : List (Said × (Stream × Bytes)), ps.map (·.2) = lines.map (fun x => sectionLine x.1 x.2)
      ∧ (∀ p ∈ ps, ∃ k c, p.1 = (acquire b cfg (r.world k) c (some loc) (some r.info)).said)
      ∧ (sectionLines b cfg r loc n ss).said = interleaved ps ∧ (sectionLines b cfg r loc n ss).result = .ok () := by
  induction ss with
  | nil =>
    intro n lines h
    simp only [Inspector.sectionLines, Outcome.ok.injEq] at h
    subst h
    exact ⟨[], rfl, by simp, rfl, rfl⟩
  | cons s ss ih =>
    intro n lines h
    obtain ⟨name, room⟩ := s
    simp only [Inspector.sectionLines] at h
    simp only [sectionLines]
    split at h
    · simp at h
    · rename_i hr
      rw [if_neg hr]
      split at h
      · rename_i hn; rw [if_pos hn]; exact ih h
      · rename_i hn
        rw [if_neg hn]
        obtain ⟨res, h1, h⟩ := Outcome.bind_eq_ok.mp h
        obtain ⟨line, h2, h⟩ := Outcome.bind_eq_ok.mp h
        obtain ⟨lines', h3, h⟩ := Outcome.bind_eq_ok.mp h
        simp only [Outcome.pure_eq, Outcome.ok.injEq] at h
        subst h
        obtain ⟨ps, e1, e2, e3, e4⟩ := ih h3
        have h1' := (C71_same b _ _ _ _ _).trans h1
        refine ⟨((acquire b cfg (r.world n) (some (caller r name)) (some loc) (some r.info)).said, sectionLine line.1 line.2) :: ps, ?_, ?_, ?_, ?_⟩
        · simp [e1]
        · intro p hp
          rcases List.mem_cons.mp hp with rfl | hp
          · exact ⟨n, _, rfl⟩
          · exact e2 p hp
        · rw [bind_said_ok h1', h2, bind_said_ok (quiet_result _), bind_said_ok (x := sayLine _) (say_result _ _), e3]
          simp [sayLine, interleaved]
        · simp [h1', h2, sayLine, e4]

/-- **C71**: what lccinspector writes about a file is its lines (C70), each with a line end and after what the library wrote during
    the call the line is about. -/
theorem C71_inspector {b : Build} {cfg : Config} {r : Run} {fname : Bytes} {lines : List (Bytes × Bytes)}
    (h : Inspector.verifyLicense cfg r fname = .ok lines) :
    ∃ ps : List (Said × (Stream × Bytes)), ps.map (·.2) = verdictLines lines
      ∧ (∀ p ∈ ps, ∃ k c, p.1 = (acquire b cfg (r.world k) c (some (location fname)) (some r.info)).said)
      ∧ (verifyLicense b cfg r fname).said = interleaved ps ∧ (verifyLicense b cfg r fname).result = .ok () := by
  unfold Inspector.verifyLicense at h
  unfold verifyLicense
  split at h
  · simp at h
  · rename_i hl
    rw [if_neg hl]
    obtain ⟨res, h1, h⟩ := Outcome.bind_eq_ok.mp h
    obtain ⟨line, h2, h⟩ := Outcome.bind_eq_ok.mp h
    obtain ⟨lines', h3, h⟩ := Outcome.bind_eq_ok.mp h
    simp only [Outcome.pure_eq, Outcome.ok.injEq] at h
    subst h
    obtain ⟨ps, e1, e2, e3, e4⟩ := sectionLines_said (b := b) h3
    have h1' := (C71_same b _ _ _ _ _).trans h1
    refine ⟨((acquire b cfg (r.world 0) none (some (location fname)) (some r.info)).said, defaultLine line.1 line.2) :: ps, ?_, ?_, ?_, ?_⟩
    · obtain ⟨p, d⟩ := line
      simp [e1, verdictLines]
    · intro p hp
      rcases List.mem_cons.mp hp with rfl | hp
      · exact ⟨0, _, rfl⟩
      · exact e2 p hp
    · rw [bind_said_ok h1', h2, bind_said_ok (quiet_result _), bind_said_ok (x := sayLine _) (say_result _ _), e3]
      simp [sayLine, interleaved]
    · simp [h1', h2, sayLine, e4]

/-! ## Particular calls -/

theorem textsSaid_mem {b : Build} {cfg : Config} {w : World} {magic : Nat} {f : Bytes} {K : Nat} {ps : List (Bytes × Bytes)} {l : Said}
    (h : TextsSaid b cfg w magic f K ps l) : ∀ p ∈ ps, ∃ k ≤ K, ∃ l', TextSaid b cfg w magic f p.2 (w.clock k) l' ∧ ∀ x ∈ l', x ∈ l := by
  induction h with
  | nil => simp
  | @cons src text ps k l l' hk ht _ ih =>
    intro p hp
    rcases List.mem_cons.mp hp with rfl | hp
    · exact ⟨k, hk, l, ht, fun x hx => List.mem_append_left _ hx⟩
    · obtain ⟨k, hk, l'', h1, h2⟩ := ih p hp
      exact ⟨k, hk, l'', h1, fun x hx => List.mem_append_right _ (h2 x hx)⟩

theorem textSaid_signature {b : Build} {cfg : Config} {w : World} {magic : Nat} {f text : Bytes} {now : Int} {l : Said}
    (h : TextSaid b cfg w magic f text now l) : ∃ l', SignatureSaid b f text l' ∧ ∀ x ∈ l', x ∈ l := by
  cases h with
  | unlooked h _ => exact ⟨_, h, fun _ h => h⟩
  | looked h _ _ => exact ⟨_, h, fun _ h => List.mem_append_left _ h⟩

/-- **C71**: a build for debugging writes the data to be signed of every complete licence it locates, whatever its signature. -/
theorem C71_debug {b : Build} {cfg : Config} {w : World} {caller : Option Caller} {hint : Option LicenseLocation} {out : Option LicInfo}
    {res : AcquireResult} {f : Bytes} (hd : b.debug = true) (hf : FeatureIs cfg caller f)
    (h : (acquire b cfg w caller hint out).result = .ok res)
    (hbig : ∀ p ∈ located cfg w hint, ∀ k ≤ res.ticks, ∀ s, LooksAt cfg w (magicOf caller) f p.2 (w.clock k) s →
      (identifierText s).length < 2 ^ 63)
    {src text data : Bytes} (hp : (src, text) ∈ located cfg w hint) (hc : Complete f text) (hs : SigningData f (entriesFor f text) data) :
    (.out, b!"license to sign [" ++ data ++ b!"]\n") ∈ (acquire b cfg w caller hint out).said := by
  obtain ⟨k, _, l, h1, h2⟩ := textsSaid_mem (C71_acquire hf h hbig) _ hp
  obtain ⟨l', h3, h4⟩ := textSaid_signature h1
  apply h2; apply h4
  cases h3 with
  | none h => exact absurd hc h
  | release _ h => rw [hd] at h; simp at h
  | debug _ _ _ h => rw [signingData_unique hs h]; exact List.mem_cons_self ..

/-- **C71**: a licence, in order but for an identifier that does not stand for 8 bytes (and is not `==`), makes every build write on the standard
    error. -/
theorem C71_wrong_identifier {b : Build} {cfg : Config} {w : World} {caller : Option Caller} {hint : Option LicenseLocation}
    {out : Option LicInfo} {res : AcquireResult} {f : Bytes} (hf : FeatureIs cfg caller f)
    (h : (acquire b cfg w caller hint out).result = .ok res)
    (hbig : ∀ p ∈ located cfg w hint, ∀ k ≤ res.ticks, ∀ s, LooksAt cfg w (magicOf caller) f p.2 (w.clock k) s →
      (identifierText s).length < 2 ^ 63)
    {src text s : Bytes} (hp : (src, text) ∈ located cfg w hint)
    (hl : ∀ k ≤ res.ticks, LooksAt cfg w (magicOf caller) f text (w.clock k) s) (hs : decodedSize (identifierText s) ≠ 8)
    (he : identifierText s ≠ b!"==") : ∃ t, Numeral 10 (decodedSize (identifierText s)) t ∧ (.err, t) ∈ (acquire b cfg w caller hint out).said := by
  obtain ⟨k, hk, l, h1, h2⟩ := textsSaid_mem (C71_acquire hf h hbig) _ hp
  cases h1 with
  | unlooked _ h => exact absurd ⟨s, hl k hk⟩ h
  | @looked l l' s' _ h3 h4 =>
    have : s' = s := by
      have h5 := h3.identifier.2
      rw [(hl k hk).identifier.2] at h5
      simpa using h5.symm
    subst this
    cases h4 with
    | good h => exact absurd h hs
    | short h =>
      refine ⟨b!"0", ?_, h2 _ (by simp)⟩
      have : decodedSize (identifierText s') = 0 := if_pos h
      rw [this]; exact C70_number (by omega) (by omega) 0
    | equals h => exact absurd h he
    | wrong h _ h' h5 _ => exact ⟨_, h5, h2 _ (by simp)⟩

open Classical in
/-- **C71**: on Windows, in a release build with a key of 1024 bits, a call writes three numbers for each complete licence it locates
    (if the system works, the signatures decode and the identifiers looked at stand for 8 bytes), and nothing else. -/
theorem C71_windows_call {c : Win.Bcrypt} (hc : c.Sized) {m e : Bytes} (hm : Bytewide m 128) (he : Minimal e) (hel : e.length = 3)
    (hk : c.publicKey = publicKey m e) (hsys : ∀ data, Hashes c data) (hrsa : c.rsaProvider = true)
    {cfg : Config} {w : World} {caller : Option Caller} {hint : Option LicenseLocation} {out : Option LicInfo}
    {res : AcquireResult} {f : Bytes} (hf : FeatureIs cfg caller f) (h : (acquire (windowsBuild false c) cfg w caller hint out).result = .ok res)
    (hdec : ∀ p ∈ located cfg w hint, ∀ sig, lastValue (b!"sig") (entriesFor f p.2) = some sig →
      ∃ d, Licensecc.unbase64 sig = .ok d ∧ d ≠ [])
    (hid : ∀ p ∈ located cfg w hint, ∀ k ≤ res.ticks, ∀ s, LooksAt cfg w (magicOf caller) f p.2 (w.clock k) s →
      decodedSize (identifierText s) = 8) :
    (acquire (windowsBuild false c) cfg w caller hint out).said =
      (located cfg w hint).flatMap fun p => if Complete f p.2 then keyLines else [] := by
  have hlen : ∀ t : Bytes, decodedSize t = 8 → t.length < 2 ^ 63 := by
    intro t h
    unfold decodedSize at h
    split at h
    · omega
    · have : paddings t ≤ 2 := by
        unfold paddings
        refine Nat.le_trans (List.count_le_length) ?_
        rw [List.length_drop]; omega
      omega
  have hT := C71_acquire hf h (fun p hp k hk s hl => hlen _ (hid p hp k hk s hl))
  generalize (acquire (windowsBuild false c) cfg w caller hint out).said = l at hT
  revert hdec hid hT
  generalize located cfg w hint = ps
  intro hdec hid hT
  induction hT with
  | nil => rfl
  | @cons src text ps k l l' hkK ht _ ih =>
    rw [List.flatMap_cons, ih (fun p hp => hdec p (List.mem_cons_of_mem _ hp)) (fun p hp => hid p (List.mem_cons_of_mem _ hp))]
    congr 1
    have hsig : ∀ l, SignatureSaid (windowsBuild false c) f text l → l = if Complete f text then keyLines else [] := by
      intro l hl
      cases hl with
      | none h => rw [if_neg h]
      | debug _ h => simp [windowsBuild] at h
      | @release sig data h _ h1 h2 =>
        rw [if_pos h]
        show (verify c data sig).said = _
        have hd := hdec _ (List.mem_cons_self ..) sig h1
        rcases C71_windows hc hm he hel hk data sig with ⟨_, h3, _⟩ | ⟨_, _, h3⟩ | ⟨_, h3, _⟩
        · exfalso
          obtain ⟨d, hd1, hd2⟩ := hd
          have : Licensecc.unbase64 sig = .ok [] := by
            rw [← unbase64_result]
            unfold unbase64
            have h : sig.filter (fun b => !(b == 10)) = counting sig := by
              unfold counting; congr 1; funext b; by_cases hb : b = 10 <;> simp [hb]
            rw [h, if_pos h3]; rfl
          rw [this] at hd1
          simp only [Outcome.ok.injEq] at hd1
          exact hd2 hd1.symm
        · exact h3
        · exact absurd ⟨hsys data, hd, hrsa⟩ h3
    cases ht with
    | unlooked h1 _ => exact hsig _ h1
    | looked h1 h2 h3 =>
      rw [← hsig _ h1]
      have h8 := hid _ (List.mem_cons_self ..) k hkK _ h2
      cases h3 with
      | good _ => simp
      | short h => unfold decodedSize at h8; rw [if_pos h] at h8; omega
      | equals _ => simp
      | wrong _ _ h => exact absurd h8 h

/-- **C71**: an encoded licence handed over by the caller with fewer than two characters that count makes every build complain on the
    standard output; what follows is undefined. -/
theorem C71_short_text (b : Build) {cfg : Config} {w : World} {caller : Option Caller} {loc : LicenseLocation} {out : Option LicInfo} {f d : Bytes}
    (hcfg : cfg.nearModule = false ∧ cfg.withEnvVar = false) (hf : FeatureIs cfg caller f) (hk : loc.kind = 2)
    (hd : TextIn loc.data 4096 d) (hne : d ≠ []) (hs : (counting d).length < 2) :
    (acquire b cfg w caller (some loc) out).said = [(.out, complaint)] ∧ (acquire b cfg w caller (some loc) out).result = .ub := by
  have hu : (unbase64 d).result = .ok [] := by
    unfold unbase64
    have h : d.filter (fun b => !(b == 10)) = counting d := by
      unfold counting; congr 1; funext b; by_cases hb : b = 10 <;> simp [hb]
    rw [h, if_pos hs]; rfl
  have hsd := unbase64_said d
  rw [if_pos hs] at hsd
  have hact : activeStrategies cfg (some loc) = [.externalDefinition loc] := by
    unfold activeStrategies; simp [hcfg.1, hcfg.2]
  have hbs := boundedString_iff.mpr hd
  obtain ⟨c, rest, hdat, hc0⟩ : ∃ c rest, loc.data = c :: rest ∧ c ≠ 0 := by
    obtain ⟨h1, h2⟩ := hd
    cases d with
    | nil => exact absurd rfl hne
    | cons c d =>
      have hc : c ≠ 0 := by rintro rfl; simp at h1
      rcases h2 with ⟨rest, h2, _⟩ | ⟨x, rest, h2, _⟩
      · exact ⟨c, _, h2, hc⟩
      · exact ⟨c, _, h2, hc⟩
  have hadd : ∃ r', (Registry.empty w.platform).addEvent .specified (some externalName) = .ok r' := by
    cases w.platform <;> exact ⟨_, rfl⟩
  obtain ⟨r', hadd⟩ := hadd
  have hloc : licenseLocations w (.externalDefinition loc) (Registry.empty w.platform) = .ok (r', [externalName], false) := by
    unfold licenseLocations
    simp only [hdat]
    rw [if_neg hc0, hadd]
    simp only [Outcome.ok_bind]
    rw [if_neg (by omega), if_pos (.inr hk)]
    rfl
  have hret : (retrieveContent w (.externalDefinition loc) false externalName).said = [(.out, complaint)]
      ∧ (retrieveContent w (.externalDefinition loc) false externalName).result = .ub := by
    unfold retrieveContent
    simp only [if_true]
    rw [hbs]
    simp only [if_pos hk]
    constructor
    · rw [bind_said_ok (quiet_result _), bind_said_ok hu, hsd]; rfl
    · simp [hu, stringOfVector]
  have hfo : featureOf cfg caller = .ok f := featureOf_iff.mpr hf
  have hrl : (readLocators w f (Registry.empty w.platform) [.externalDefinition loc]).said = [(.out, complaint)]
      ∧ (readLocators w f (Registry.empty w.platform) [.externalDefinition loc]).result = .ub := by
    rw [readLocators, hloc]
    have hls : ∀ n, n = externalName → (readLocations w f (.externalDefinition loc) false r' [n]).said = [(.out, complaint)]
        ∧ (readLocations w f (.externalDefinition loc) false r' [n]).result = .ub := by
      rintro n rfl
      rw [readLocations]
      exact ⟨by rw [bind_said_stop (by intro y; rw [hret.2]; exact fun h => nomatch h), hret.1], by rw [bind_result, hret.2]; rfl⟩
    obtain ⟨h1, h2⟩ := hls _ rfl
    constructor
    · rw [bind_said_ok (quiet_result _)]
      simp only [quiet_said, List.nil_append]
      rw [bind_said_stop (by intro y; rw [h2]; exact fun h => nomatch h), h1]
    · rw [bind_result, quiet_result]
      simp only [Outcome.ok_bind]
      rw [bind_result, h2]
      rfl
  have hrd : (readLicenses cfg w (some loc) f).said = [(.out, complaint)] ∧ (readLicenses cfg w (some loc) f).result = .ub := by
    unfold readLicenses
    simp only [hact, List.isEmpty_cons, Bool.false_eq_true, if_false]
    constructor
    · rw [bind_said_stop (by intro y; simp [hrl.2]), hrl.1]
    · simp [hrl.2]
  unfold acquire
  rw [hfo]
  constructor
  · rw [bind_said_ok (quiet_result _), bind_said_stop (by intro y; simp [hrd.2]), hrd.1]; rfl
  · simp [hrd.2]

/-! ### Concrete cases -/

/-- A licence with a hardware identifier of three bytes, in a world that accepts every signature. -/
def oddText : Bytes := b!"[TEST]\nlic_ver=200\nclient-signature=QUJD\nsig=QUJD\n"

def trusting : World := { sampleWorld sampleNow with verify := fun _ _ => .ok true }

/-- A release build of the library writes "3", and the call reports a mismatch; a build for debugging writes the signed data too. -/
example : (acquire (linuxBuild false) ⟨b!"TEST", false, false, 5⟩ trusting (some sampleCaller) (some ⟨1, oddText ++ [0]⟩) none).said
      = [(.err, b!"3")]
    ∧ (acquire (linuxBuild true) ⟨b!"TEST", false, false, 5⟩ trusting (some sampleCaller) (some ⟨1, oddText ++ [0]⟩) none).said
      = [(.out, b!"license to sign [TESTclient-signatureQUJDlic_ver200]\n"), (.err, b!"3")]
    ∧ retOf (Licensecc.acquire ⟨b!"TEST", false, false, 5⟩ trusting (some sampleCaller) (some ⟨1, oddText ++ [0]⟩) none)
      = some .identifiersMismatch := by decide +kernel

/-- With a wrong magic number the identifier is not looked at. -/
example : (acquire (linuxBuild false) ⟨b!"TEST", false, false, 6⟩ trusting (some sampleCaller) (some ⟨1, oddText ++ [0]⟩) none).said
      = [] := by decide +kernel

/-- An identifier of one character. -/
example : (acquire (linuxBuild false) ⟨b!"TEST", false, false, 5⟩ trusting (some sampleCaller)
      (some ⟨1, b!"[TEST]\nlic_ver=200\nclient-signature=-Q-\nsig=QUJD\n" ++ [0]⟩) none).said
    = [(.out, complaint), (.err, b!"0")] := by decide +kernel

/-- The encoded licence `Q`. -/
example : (acquire (linuxBuild false) ⟨b!"TEST", false, false, 5⟩ trusting (some sampleCaller) (some ⟨2, b!"Q\n" ++ [0]⟩) none).said
      = [(.out, complaint)] :=
  (C71_short_text (linuxBuild false) ⟨rfl, rfl⟩ (f := b!"test") (d := b!"Q\n")
    (.named ⟨by decide, .inl ⟨List.replicate 11 0, by decide, by decide⟩⟩ (by decide)) rfl
    ⟨by decide, .inl ⟨[], rfl, by decide⟩⟩ (by decide) (by decide)).1

/-- Windows: three numbers for a good licence, two with a key of 2048 bits. -/
example : (acquire (windowsBuild false Win.sampleBcrypt) ⟨b!"TEST", false, false, 5⟩
      { trusting with verify := Win.sampleBcrypt.verify } (some sampleCaller)
      (some ⟨1, b!"[TEST]\nlic_ver=200\nsig=QUJD\n" ++ [0]⟩) none).said = keyLines
    ∧ (verify { Win.sampleBcrypt with publicKey := publicKey Win.sampleModulus2048 [1, 0, 1] } (b!"ABC") (b!"QUJD")).said
      = [(.out, b!"128\n"), (.out, b!"128\n")]
    ∧ (verify Win.sampleBcrypt (b!"ABC") (b!"Q")).said = [(.out, complaint)]
    ∧ (verify { Win.sampleBcrypt with hashCreated := false } (b!"ABC") (b!"Q")).said = [] := by decide +kernel

/-- identify_pc with a strategy that does not exist. -/
example : (identifyPc true (b!"strategy not supported") bareMachine 7 (some (List.replicate 20 0)) 20).said
      = [(.err, b!"Error occurred in identify_pc: strategy not supported\n")]
    ∧ (identifyPc false (b!"strategy not supported") bareMachine 7 (some (List.replicate 20 0)) 20).said = []
    ∧ (identifyPc true (b!"strategy not supported") bareMachine 7 none 20).said = [] := by decide +kernel

/-- The identifiers a user sees are the right size: `AAAA-AAAA-AAA=` stands for 8 bytes. -/
example : decodedSize (identifierText (b!"AAAA-AAAA-AAA=")) = 8
    ∧ decodedSize (identifierText (b!"AAAAAAAA")) = 6 ∧ decodedSize (identifierText (b!"-Q-")) = 0 := by decide +kernel

/-- The hypotheses of `C71_silent` hold for an issued licence next to the executable. -/
example : (acquire (linuxBuild false) sampleConfig issuedWorld (some sampleCaller) none none).said = [] := by
  have hl : located sampleConfig issuedWorld none = [(b!"/opt/app.lic", issuedText (b!"test") issuedLimits (b!"QUJD"))] := by decide +kernel
  refine C71_silent none ⟨fun _ _ h => (nomatch h), fun _ _ h => absurd h (by decide)⟩ ?_
  intro f p k s hf hp hs
  have hf' : f = b!"test" :=
    featureIs_unique hf (.named ⟨by decide, .inl ⟨List.replicate 11 0, by decide, by decide⟩⟩ (by decide))
  rw [hl, List.mem_singleton] at hp
  subst hf' hp
  have h := (issued_limit sample_issued (by decide) (by decide)).mp hs.identifier
  have : s = b!"AEEC-AwQF-Bgc=" := by simpa [issuedLimits] using h
  subst this
  decide +kernel

end Licensecc.Output
