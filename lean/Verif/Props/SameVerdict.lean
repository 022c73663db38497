import Verif.Props.Forgery
/-!
# C57: licences that differ only in what is not enforced give the same result, not only the same acceptance
-/
namespace Licensecc
open Licensecc.Spec

/-- The same but for the text that is handed on to the caller. -/
def SameBut (i i' : LicInfo) : Prop := ∃ p, i' = { i with proprietary := p }

theorem SameBut.refl (i : LicInfo) : SameBut i i := ⟨i.proprietary, rfl⟩

/-- Element by element. -/
inductive Alike {α : Type} (R : α → α → Prop) : List α → List α → Prop
  | nil : Alike R [] []
  | cons {a b as bs} : R a b → Alike R as bs → Alike R (a :: as) (b :: bs)

theorem Alike.refl {α : Type} {R : α → α → Prop} (h : ∀ a, R a a) : ∀ l, Alike R l l
  | [] => .nil
  | a :: l => .cons (h a) (Alike.refl h l)

theorem Alike.append {α : Type} {R : α → α → Prop} {as bs cs ds : List α} (h : Alike R as bs) (h' : Alike R cs ds) :
    Alike R (as ++ cs) (bs ++ ds) := by
  induction h with
  | nil => exact h'
  | cons ha _ ih => exact .cons ha ih

/-- Two licences that the library treats alike. -/
structure Treated (w : World) (a b : FullLicense) : Prop where
  source : a.source = b.source
  magic : a.magic = b.magic
  expiry : SMap.find? kExpiry a.limits = SMap.find? kExpiry b.limits
  begin_ : SMap.find? kBegin a.limits = SMap.find? kBegin b.limits
  client : SMap.find? kClient a.limits = SMap.find? kClient b.limits
  signed : w.verify a.printForSign a.signature = w.verify b.printForSign b.signature

theorem Treated.refl (w : World) (a : FullLicense) : Treated w a a := ⟨rfl, rfl, rfl, rfl, rfl, rfl⟩

theorem Treated.withMagic {w : World} {a b : FullLicense} (h : Treated w a b) (c : Option Caller) :
    Treated w (withMagic c a) (withMagic c b) := by
  refine ⟨h.source, ?_, h.expiry, h.begin_, h.client, h.signed⟩
  cases c with
  | none => exact h.magic
  | some c => rfl

theorem verifySignature_treated {w : World} {a b : FullLicense} (h : Treated w a b) (r : Registry) :
    verifySignature w a r = verifySignature w b r := by
  unfold verifySignature
  rw [h.signed, h.source]

theorem verifyLimits_treated {cfg : Config} {w : World} {a b : FullLicense} (h : Treated w a b) (r : Registry) (k : Nat) :
    verifyLimits cfg w a r k = verifyLimits cfg w b r k := by
  unfold verifyLimits checkExpiry checkBegin checkClient
  rw [h.magic, h.expiry, h.begin_, h.client, h.source]

theorem toLicenseInfo_treated {w : World} {a b : FullLicense} (h : Treated w a b) {k k1 : Nat} {i : LicInfo}
    (hi : toLicenseInfo w a k = .ok (i, k1)) : ∃ i', toLicenseInfo w b k = .ok (i', k1) ∧ SameBut i i' := by
  unfold toLicenseInfo at hi ⊢
  rw [h.expiry, h.client] at hi
  cases he : SMap.find? kExpiry b.limits with
  | none =>
    rw [he] at hi
    simp only [Outcome.pure_eq, Outcome.ok.injEq, Prod.mk.injEq] at hi ⊢
    obtain ⟨rfl, rfl⟩ := hi
    exact ⟨_, ⟨rfl, rfl⟩, _, rfl⟩
  | some d =>
    rw [he] at hi
    simp only at hi ⊢
    obtain ⟨t, ht, hi⟩ := Outcome.bind_eq_ok.mp hi
    rw [ht]
    simp only [Outcome.ok_bind]
    split at hi
    · rename_i hr
      rw [if_pos hr]
      simp only [Outcome.pure_eq, Outcome.ok.injEq, Prod.mk.injEq] at hi ⊢
      obtain ⟨rfl, rfl⟩ := hi
      exact ⟨_, ⟨rfl, rfl⟩, _, rfl⟩
    · simp at hi

theorem judgeLoop_treated {cfg : Config} {w : World} {caller : Option Caller} {as bs : List FullLicense} (h : Alike (Treated w) as bs) :
    ∀ {r r' : Registry} {k k' : Nat} {oks errs : List LicInfo}, judgeLoop cfg w caller r k as = .ok (r', k', oks, errs) →
    ∃ oks' errs', judgeLoop cfg w caller r k bs = .ok (r', k', oks', errs') ∧ Alike SameBut oks oks' ∧ Alike SameBut errs errs' := by
  induction h with
  | nil =>
    intro r r' k k' oks errs h
    simp only [judgeLoop, Outcome.ok.injEq, Prod.mk.injEq] at h
    obtain ⟨rfl, rfl, rfl, rfl⟩ := h
    exact ⟨[], [], rfl, .nil, .nil⟩
  | @cons a b as bs hab _ ih =>
    intro r r' k k' oks errs h
    have hab := hab.withMagic caller
    simp only [judgeLoop] at h ⊢
    obtain ⟨⟨r1, g⟩, h1, h⟩ := Outcome.bind_eq_ok.mp h
    obtain ⟨⟨i, k1⟩, h2, h⟩ := Outcome.bind_eq_ok.mp h
    obtain ⟨i', h2', hi⟩ := toLicenseInfo_treated hab h2
    rw [← verifySignature_treated hab, h1]
    simp only [Outcome.ok_bind]
    rw [h2']
    simp only [Outcome.ok_bind]
    simp only at h
    cases g with
    | true =>
      simp only [if_true] at h ⊢
      obtain ⟨⟨r2, k2, v⟩, h3, h⟩ := Outcome.bind_eq_ok.mp h
      obtain ⟨⟨r3, k3, oks1, errs1⟩, h4, h⟩ := Outcome.bind_eq_ok.mp h
      obtain ⟨oks2, errs2, h5, h6, h7⟩ := ih h4
      rw [← verifyLimits_treated hab, h3]
      simp only [Outcome.ok_bind]
      rw [h5]
      simp only [Outcome.ok_bind, Outcome.pure_eq, Outcome.ok.injEq, Prod.mk.injEq] at h ⊢
      obtain ⟨rfl, rfl, rfl, rfl⟩ := h
      refine ⟨_, _, ⟨rfl, rfl, rfl, rfl⟩, ?_, ?_⟩
      · cases v
        · exact h6
        · exact .cons hi h6
      · cases v
        · exact .cons hi h7
        · exact h7
    | false =>
      simp only [Bool.false_eq_true, if_false] at h ⊢
      obtain ⟨⟨r3, k3, oks1, errs1⟩, h4, h⟩ := Outcome.bind_eq_ok.mp h
      obtain ⟨oks2, errs2, h5, h6, h7⟩ := ih h4
      rw [h5]
      simp only [Outcome.ok_bind, Outcome.pure_eq, Outcome.ok.injEq, Prod.mk.injEq] at h ⊢
      obtain ⟨rfl, rfl, rfl, rfl⟩ := h
      exact ⟨_, _, ⟨rfl, rfl, rfl, rfl⟩, h6, .cons hi h7⟩

theorem mergeLoop_alike {ls ls' : List LicInfo} (h : Alike SameBut ls ls') : ∀ (d : Int) {o o' : LicInfo}, SameBut o o' →
    SameBut (mergeLoop d o ls) (mergeLoop d o' ls') := by
  induction h with
  | nil => intro d o o' ho; exact ho
  | @cons a b as bs hab _ ih =>
    intro d o o' ho
    obtain ⟨p, rfl⟩ := hab
    unfold mergeLoop
    simp only
    split
    · exact ⟨p, rfl⟩
    · split
      · exact ih _ ⟨p, rfl⟩
      · exact ih _ ho

/-- The same result but for the text handed on. -/
structure Spec.SameResult (res res' : AcquireResult) : Prop where
  code : res'.ret = res.ret
  events : res'.registry = res.registry
  ticks : res'.ticks = res.ticks
  /-- the status array, the date, the days left and the flags -/
  filled : res'.out.map (fun o => (o.status, o.info.expiryDate, o.info.daysLeft, o.info.hasExpiry, o.info.linkedToPc))
    = res.out.map (fun o => (o.status, o.info.expiryDate, o.info.daysLeft, o.info.hasExpiry, o.info.linkedToPc))

theorem finish_alike {w : World} {t : EventType} {r : Registry} {k : Nat} {o o' : Option LicInfo} {res : AcquireResult}
    (h : finish w t r k o = .ok res) (ho : (o = none ∧ o' = none) ∨ ∃ i i', o = some i ∧ o' = some i' ∧ SameBut i i') :
    ∃ res', finish w t r k o' = .ok res' ∧ SameResult res res' := by
  rcases ho with ⟨rfl, rfl⟩ | ⟨i, i', rfl, rfl, p, rfl⟩
  · exact ⟨res, h, rfl, rfl, rfl, rfl⟩
  · unfold finish at h ⊢
    simp only at h ⊢
    obtain ⟨st, hs, h⟩ := Outcome.bind_eq_ok.mp h
    rw [hs]
    simp only [Outcome.ok_bind, Outcome.pure_eq, Outcome.ok.injEq] at h ⊢
    subst h
    exact ⟨_, rfl, rfl, rfl, rfl, rfl⟩

theorem judge_treated {cfg : Config} {w : World} {caller : Option Caller} {out : Option LicInfo} {r : Registry}
    {as bs : List FullLicense} (h : Alike (Treated w) as bs) {res : AcquireResult} (hj : judge cfg w caller out r as = .ok res) :
    ∃ res', judge cfg w caller out r bs = .ok res' ∧ SameResult res res' := by
  have merged : ∀ {l l' : List LicInfo}, Alike SameBut l l' →
      (out.map (mergeLicenses l) = none ∧ out.map (mergeLicenses l') = none)
      ∨ ∃ i i', out.map (mergeLicenses l) = some i ∧ out.map (mergeLicenses l') = some i' ∧ SameBut i i' := by
    intro l l' hl
    cases out with
    | none => exact .inl ⟨rfl, rfl⟩
    | some o => exact .inr ⟨_, _, rfl, rfl, mergeLoop_alike hl _ (.refl o)⟩
  cases h with
  | nil => exact ⟨res, hj, rfl, rfl, rfl, rfl⟩
  | @cons a b as bs hab hrest =>
    simp only [judge] at hj ⊢
    obtain ⟨⟨r1, k1, oks, errs⟩, h1, hj⟩ := Outcome.bind_eq_ok.mp hj
    obtain ⟨oks', errs', h2, h3, h4⟩ := judgeLoop_treated (.cons hab hrest) h1
    rw [h2]
    simp only [Outcome.ok_bind]
    cases h3 with
    | cons hx hl => exact finish_alike hj (merged (.cons hx hl))
    | nil =>
      simp only at hj ⊢
      obtain ⟨⟨r2, c⟩, h5, hj⟩ := Outcome.bind_eq_ok.mp hj
      obtain ⟨t, h6, hj⟩ := Outcome.bind_eq_ok.mp hj
      rw [h5]
      simp only [Outcome.ok_bind]
      rw [h6]
      simp only [Outcome.ok_bind]
      exact finish_alike hj (merged h4)

/-! ## Reading -/

theorem readLocators_append (w : World) (f : Bytes) (bs : List Locator) : ∀ (as : List Locator) (r : Registry),
    readLocators w f r (as ++ bs) = (do
      let (r, l1) ← readLocators w f r as
      let (r, l2) ← readLocators w f r bs
      return (r, l1 ++ l2)) := by
  intro as
  induction as with
  | nil =>
    intro r
    simp only [List.nil_append, readLocators, Outcome.ok_bind]
    cases readLocators w f r bs with
    | ok x => obtain ⟨a, b⟩ := x; rfl
    | throw e => rfl
    | ub => rfl
  | cons a as ih =>
    intro r
    simp only [List.cons_append, readLocators]
    cases licenseLocations w a r with
    | throw e => rfl
    | ub => rfl
    | ok x =>
      obtain ⟨r1, locs, b⟩ := x
      simp only [Outcome.ok_bind]
      cases readLocations w f a b r1 locs with
      | throw e => rfl
      | ub => rfl
      | ok y =>
        obtain ⟨r2, l1⟩ := y
        simp only [Outcome.ok_bind]
        rw [ih]
        cases readLocators w f r2 as with
        | throw e => rfl
        | ub => rfl
        | ok z =>
          obtain ⟨r3, l2⟩ := z
          simp only [Outcome.ok_bind, Outcome.pure_eq]
          cases readLocators w f r3 bs with
          | throw e => rfl
          | ub => rfl
          | ok u =>
            obtain ⟨r4, l3⟩ := u
            simp only [Outcome.ok_bind, List.append_assoc]

/-- Reading a complete text adds one event and gives one licence. -/
theorem readOne_complete {f text : Bytes} (hc : Complete f text) (src : Bytes) :
    ∃ lic, IsLicence f src text lic ∧ ∀ r, readOne f r src text = (do
      let r ← r.addEvent .productFound (some src)
      return (r, some lic)) := by
  obtain ⟨⟨s, hs⟩, v, hv, h200⟩ := hc
  obtain ⟨m', h1, h2, h3⟩ := fillLimits_spec (Ini.load text) (toUpperCopy f)
    (Ini.getAllKeys (Ini.load text) (toUpperCopy f)) [] SMap.sorted_nil (fun k hk => getValue_of_key hk)
  have hlong : Ini.toLong (lastValue kVersion (entriesFor f text)) (-1) = 200 := by
    rw [hv]; exact (Ini.toLong_200 _).mpr ⟨v, rfl, h200⟩
  have hl : IsLicence f src text ⟨src, f, s, 0, m'⟩ := by
    refine ⟨rfl, rfl, rfl, hs, hlong, h2, ?_⟩
    intro k v
    simp only
    rw [h3]
    unfold IsLimit entriesFor
    rw [← Ini.C18_first_spelling, ← Ini.C18_last_value]
    by_cases hk : k ∈ Ini.getAllKeys (Ini.load text) (toUpperCopy f)
    · simp [hk]
    · simp [hk, SMap.find?]
  refine ⟨_, hl, fun r => ?_⟩
  have hsize : ¬ Ini.getSectionSize (Ini.load text) (toUpperCopy f) ≤ 0 := by
    have : 0 < Ini.getSectionSize (Ini.load text) (toUpperCopy f) := by
      rw [Ini.C18_section_size]
      intro hnil
      rw [entriesFor, hnil] at hs
      simp [lastValue] at hs
    omega
  unfold entriesFor at hs hlong
  simp only [readOne]
  rw [if_neg hsize, Ini.C18_last_value, Ini.C18_last_value]
  rw [hs]
  simp only [hlong, if_true, h1, Outcome.ok_bind]

/-- Reading the text the caller passed. -/
theorem readLocators_passed {w : World} {f text : Bytes} {l : LicenseLocation} (hk : l.kind = 1) (ht : TextIn l.data 4096 text)
    (hne : text ≠ []) (r : Registry) : readLocators w f r [.externalDefinition l] = (do
      let r ← r.addEvent .specified (some externalName)
      let (r, o) ← readOne f r externalName text
      return (r, o.toList)) := by
  have hb := boundedString_iff.mpr ht
  simp only [readLocators, licenseLocations]
  cases hd : l.data with
  | nil =>
    rw [hd] at ht
    exact absurd (textIn_eq ht) (by simpa using hne)
  | cons c rest =>
    have hc : c ≠ 0 := by
      rintro rfl
      rw [hd] at ht
      exact hne (textIn_unique ht (textIn_nil.mpr rfl))
    simp only
    rw [if_neg hc]
    have k0 : ¬ l.kind = 0 := by rw [hk]; decide
    have k1 : l.kind = 1 ∨ l.kind = 2 := .inl hk
    have k2 : ¬ l.kind = 2 := by rw [hk]; decide
    simp only [if_neg k0, if_pos k1]
    cases r.addEvent .specified (some externalName) with
    | throw e => rfl
    | ub => rfl
    | ok r1 =>
      simp only [Outcome.ok_bind, Outcome.pure_eq, readLocations, retrieveContent, if_true, hb]
      simp only [if_neg k2, Outcome.ok_bind]
      cases readOne f r1 externalName text with
      | throw e => rfl
      | ub => rfl
      | ok x =>
        obtain ⟨r2, o⟩ := x
        simp [Outcome.ok_bind]

/-- **C57**, the whole result: of two texts with a good signature that agree on the three limits, passing the one or the other to a call
    gives the same code, the same events and the same information, but for the text that is handed on (extra-data); if
    the one call returns, so does the other. Nothing is assumed about the clock or the other licences. -/
theorem C57_same_result {cfg : Config} {w : World} {caller : Option Caller} {l l' : LicenseLocation} {out : Option LicInfo}
    {res : AcquireResult} {f text text' : Bytes} {limits limits' : List (Bytes × Bytes)}
    (hf : FeatureIs cfg caller f) (h : Issued w f limits text) (h' : Issued w f limits' text')
    (hsame : ∀ k v, k = b!"valid-from" ∨ k = b!"valid-to" ∨ k = b!"client-signature" → ((k, v) ∈ limits ↔ (k, v) ∈ limits'))
    (hk : l.kind = 1) (hk' : l'.kind = 1) (ht : TextIn l.data 4096 text) (ht' : TextIn l'.data 4096 text')
    (ha : acquire cfg w caller (some l) out = .ok res) :
    ∃ res', acquire cfg w caller (some l') out = .ok res' ∧ SameResult res res' := by
  have ne : ∀ {t : Bytes} {ls : List (Bytes × Bytes)}, Issued w f ls t → t ≠ [] := by
    intro t ls hi
    obtain ⟨s, data, _, rfl, _⟩ := hi.signed
    simp [issuedText]
  have comp : ∀ {t : Bytes} {ls : List (Bytes × Bytes)}, Issued w f ls t → Complete f t := by
    intro t ls hi
    obtain ⟨s, data, h1, _, _, hlim⟩ := issued_limits hi
    exact ⟨⟨s, h1⟩, b!"200", ((hlim _ _).mpr (.inr (.inl ⟨rfl, rfl⟩))).2, means200⟩
  obtain ⟨a, hla, hra⟩ := readOne_complete (comp h) externalName
  obtain ⟨b, hlb, hrb⟩ := readOne_complete (comp h') externalName
  have good : ∀ {t : Bytes} {ls : List (Bytes × Bytes)} {x : FullLicense}, Issued w f ls t → IsLicence f externalName t x →
      w.verify x.printForSign x.signature = .ok true := by
    intro t ls x hi hx
    obtain ⟨s, data, h1, h2, h3, _⟩ := issued_limits hi
    have e1 : s = x.signature := by
      have := hx.signature
      rw [h1] at this
      simpa using this
    rw [signingData_unique (signingData_of_licence hx) h2, ← e1]; exact h3
  have find : ∀ k, k = b!"valid-from" ∨ k = b!"valid-to" ∨ k = b!"client-signature" → SMap.find? k a.limits = SMap.find? k b.limits := by
    intro k hk
    have n1 : k ≠ b!"lic_ver" := by rcases hk with rfl | rfl | rfl <;> decide
    have n2 : k ≠ b!"sig" := by rcases hk with rfl | rfl | rfl <;> decide
    have key : ∀ v, SMap.find? k a.limits = some v ↔ SMap.find? k b.limits = some v := by
      intro v
      rw [hla.limits, hlb.limits, issued_limit h n1 n2, issued_limit h' n1 n2]
      exact hsame k v hk
    cases h1 : SMap.find? k a.limits with
    | some v => exact ((key v).mp h1).symm
    | none =>
      cases h2 : SMap.find? k b.limits with
      | none => rfl
      | some v => rw [(key v).mpr h2] at h1; simp at h1
  have hab : Treated w a b := by
    refine ⟨by rw [hla.source, hlb.source], by rw [hla.magic, hlb.magic], find _ (.inr (.inl rfl)), find _ (.inl rfl),
      find _ (.inr (.inr rfl)), ?_⟩
    rw [good h hla, good h' hlb]
  have hfeat : featureOf cfg caller = .ok f := featureOf_iff.mpr hf
  unfold acquire at ha ⊢
  rw [hfeat] at ha ⊢
  simp only [Outcome.ok_bind] at ha ⊢
  obtain ⟨⟨r, lics⟩, hr, hj⟩ := Outcome.bind_eq_ok.mp ha
  have strat : ∀ x : LicenseLocation, activeStrategies cfg (some x) = activeStrategies cfg none ++ [.externalDefinition x] := by
    intro x; simp [activeStrategies]
  unfold readLicenses at hr ⊢
  simp only at hr ⊢
  rw [strat] at hr ⊢
  rw [if_neg (by simp)] at hr ⊢
  rw [readLocators_append] at hr
  rw [readLocators_append]
  obtain ⟨⟨r1, ls⟩, h1, hr⟩ := Outcome.bind_eq_ok.mp hr
  obtain ⟨⟨r2, l1⟩, h2, h3⟩ := Outcome.bind_eq_ok.mp h1
  obtain ⟨⟨r3, l2⟩, h4, h5⟩ := Outcome.bind_eq_ok.mp h3
  rw [readLocators_passed hk ht (ne h)] at h4
  obtain ⟨r4, h6, h7⟩ := Outcome.bind_eq_ok.mp h4
  rw [hra] at h7
  rw [h2]
  simp only [Outcome.ok_bind]
  rw [readLocators_passed hk' ht' (ne h'), h6]
  simp only [Outcome.ok_bind]
  rw [hrb]
  cases h8 : r4.addEvent .productFound (some externalName) with
  | throw e => rw [h8] at h7; simp at h7
  | ub => rw [h8] at h7; simp at h7
  | ok r5 =>
    rw [h8] at h7
    simp only [Outcome.ok_bind, Outcome.pure_eq, Outcome.ok.injEq, Prod.mk.injEq, Option.toList_some] at h5 h7 hr ⊢
    obtain ⟨rfl, rfl⟩ := h7
    obtain ⟨rfl, rfl⟩ := h5
    rw [if_neg (by simp)] at hr ⊢
    simp only [Outcome.ok.injEq, Prod.mk.injEq] at hr
    obtain ⟨rfl, rfl⟩ := hr
    simp only [Outcome.ok_bind]
    exact judge_treated ((Alike.refl (Treated.refl w) l1).append (.cons hab .nil)) hj

/-! ### A concrete pair -/

/-- Everybody signs. -/
def signAll : World := { sampleWorld sampleNow with verify := fun _ sig => .ok (sig = b!"QUJD") }

theorem issued_visible {w : World} {f s : Bytes} {kvs sorted : List (Bytes × Bytes)} (hf : (∀ c ∈ f, 32 < c.toNat) ∧ 93 ∉ f)
    (hk : ∀ e ∈ kvs, (∀ c ∈ e.1 ++ e.2, 32 < c.toNat) ∧ 61 ∉ e.1 ∧ e.1 ≠ [] ∧ ∀ c ∈ e.1.head?, c ≠ 59 ∧ c ≠ 35 ∧ c ≠ 91)
    (hd : (b!"lic_ver" :: b!"sig" :: kvs.map (·.1)).Pairwise (fun a b => Ini.sameName a b = false))
    (hs : ∀ c ∈ s, 32 < c.toNat) (hp : sorted.Perm ((b!"lic_ver", b!"200") :: kvs))
    (ho : sorted.Pairwise (fun a b => bytesLt a.1 b.1 = true))
    (hv : w.verify (toUpperCopy f ++ sorted.flatMap fun e => e.1 ++ e.2) s = .ok true) : Issued w f kvs (issuedText f kvs s) := by
  refine ⟨⟨plainText_of_visible hf.1, hf.2⟩, ?_, ?_, s, _, plainText_of_visible hs, rfl, ⟨sorted, hp, ?_, rfl⟩, hv⟩
  · intro e he
    obtain ⟨h1, h2, h3, h4⟩ := hk e he
    refine ⟨⟨plainText_of_visible fun c hc => h1 c (by simp [hc]), h2, ?_⟩, plainText_of_visible fun c hc => h1 c (by simp [hc])⟩
    obtain ⟨k, v⟩ := e
    cases k with
    | nil => exact absurd rfl h3
    | cons c r => exact ⟨c, r, rfl, h4 c (by simp)⟩
  · refine hd.imp ?_
    intro a b h hs
    rw [← Ini.sameName_iff, h] at hs
    simp at hs
  · exact ho.imp fun h => before_iff.mpr h

def soon : Bytes × Bytes := (b!"valid-to", b!"20300101")

/-- The hypotheses of `C57_same_result` are met by two licences of which one is for versions up to 8 only, and the call returns. -/
example : Issued signAll (b!"test") [soon] (issuedText (b!"test") [soon] (b!"QUJD"))
    ∧ Issued signAll (b!"test") [(b!"end-version", b!"8"), soon] (issuedText (b!"test") [(b!"end-version", b!"8"), soon] (b!"QUJD"))
    ∧ retOf (acquire sampleConfig signAll (some sampleCaller)
        (some ⟨1, issuedText (b!"test") [soon] (b!"QUJD") ++ List.replicate 4096 0⟩) none) = some .licenseOk := by
  refine ⟨issued_visible (sorted := [(b!"lic_ver", b!"200"), soon]) (by decide) (by decide +kernel) (by decide +kernel) (by decide) (by decide)
    (by decide +kernel) (by decide +kernel), issued_visible (sorted := [(b!"end-version", b!"8"), (b!"lic_ver", b!"200"), soon])
    (by decide) (by decide +kernel) (by decide +kernel) (by decide) (by decide) (by decide +kernel) (by decide +kernel), by decide +kernel⟩

end Licensecc
