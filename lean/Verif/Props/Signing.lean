import Verif.Props.Info
/-!
# What the signature covers: C15, C16
-/
namespace Licensecc
open Licensecc.Spec

/-! ## Limits of texts without repeated keys -/

theorem sameCI_refl (k : Bytes) : SameCI k k := (Ini.sameName_iff k k).mp (Ini.sameName_refl k)

/-- In a list without repeated keys (ignoring case) the limits are the entries. -/
theorem isLimit_distinct {es : List (Bytes × Bytes)} (hd : (es.map (·.1)).Pairwise (fun a b => ¬ SameCI a b)) (k v : Bytes) :
    IsLimit es k v ↔ (k, v) ∈ es := by
  have one : ∀ {e : Bytes × Bytes}, e ∈ es → ∀ k, SameCI e.1 k →
      es.filter (fun p => @decide (SameCI p.1 k) (Classical.propDecidable _)) = [e] := by
    induction es with
    | nil => simp
    | cons a es ih =>
      simp only [List.map_cons, List.pairwise_cons] at hd
      intro e he k hk
      rw [List.filter_cons]
      rcases List.mem_cons.mp he with rfl | he
      · rw [if_pos (by simpa using hk)]
        congr 1
        rw [List.filter_eq_nil_iff]
        intro b hb hbk
        simp only [decide_eq_true_eq] at hbk
        exact hd.1 b.1 (List.mem_map_of_mem hb) (sameCI_left hk hbk)
      · rw [if_neg, ih hd.2 he k hk]
        intro hak
        simp only [decide_eq_true_eq] at hak
        exact hd.1 e.1 (List.mem_map_of_mem he) (sameCI_left hak hk)
  constructor
  · rintro ⟨h1, h2⟩
    unfold firstSpelling at h1
    unfold lastValue at h2
    cases hf : es.filter (fun p => @decide (SameCI p.1 k) (Classical.propDecidable _)) with
    | nil => rw [hf] at h1; simp at h1
    | cons e xs =>
      have he : e ∈ es.filter (fun p => @decide (SameCI p.1 k) (Classical.propDecidable _)) := by rw [hf]; simp
      rw [List.mem_filter] at he
      have := one he.1 k (by simpa using he.2)
      rw [this] at h1 h2
      simp at h1 h2
      obtain ⟨e1, e2⟩ := e
      simp at h1 h2
      rw [← h1, ← h2]; exact he.1
  · intro he
    have := one he k (sameCI_refl k)
    exact ⟨by unfold firstSpelling; rw [this]; rfl, by unfold lastValue; rw [this]; rfl⟩
where
  sameCI_left {a b c : Bytes} (h1 : SameCI a c) (h2 : SameCI b c) : SameCI a b := by
    rw [← Ini.sameName_iff] at *
    unfold Ini.sameName at *
    simp_all

/-! ## C16 what does not matter -/

/-- Two lines mean the same up to the letter case of a section name. -/
inductive Spec.SameItem : Ini.Item → Ini.Item → Prop
  | header {n n' : Bytes} : SameCI n n' → SameItem (.header n) (.header n')
  | badHeader : SameItem .badHeader .badHeader
  | entry {k v : Bytes} : SameItem (.entry k v) (.entry k v)

inductive Spec.SameItems : List Ini.Item → List Ini.Item → Prop
  | nil : SameItems [] []
  | cons {a b : Ini.Item} {as bs : List Ini.Item} : SameItem a b → SameItems as bs → SameItems (a :: as) (b :: bs)

theorem entriesFrom_same {p : Bytes} {as bs : List Ini.Item} (h : SameItems as bs) : ∀ c, entriesFrom p c as = entriesFrom p c bs := by
  induction h with
  | nil => intro c; rfl
  | cons h _ ih =>
    intro c
    cases h with
    | @header n n' hn =>
      have e : ∀ (i : Decidable (SameCI n p)) (j : Decidable (SameCI n' p)), @decide (SameCI n p) i = @decide (SameCI n' p) j := by
        intro i j
        rw [Ini.decide_sameCI, Ini.decide_sameCI]
        exact Ini.sameName_trans ((Ini.sameName_iff _ _).mpr hn) p
      cases c <;> simp only [entriesFrom] <;> rw [ih] <;> congr 1 <;> exact e _ _
    | badHeader => cases c <;> simp only [entriesFrom, ih]
    | entry => cases c <;> simp only [entriesFrom, ih]

theorem entriesFor_same {t u : Text} (ht : t.WF) (hu : u.WF) (h : SameItems t.items u.items) (f : Bytes) :
    entriesFor f t.render = entriesFor f u.render := by
  unfold entriesFor entriesOf
  rw [Ini.items_text ht, Ini.items_text hu]
  exact entriesFrom_same h _

/-- **C16**: indentation, blanks around names, `=` and values, the kind of line breaks, comments, blank and garbage lines
    and the letter case of section names change neither the signed data nor what the licence grants. -/
theorem C16_layout {t u : Text} (ht : t.WF) (hu : u.WF) (h : SameItems t.items u.items) (f : Bytes) :
    (∀ d, SigningData f (entriesFor f t.render) d ↔ SigningData f (entriesFor f u.render) d)
    ∧ ∀ cfg w magic now, Grants cfg w magic f t.render now ↔ Grants cfg w magic f u.render now := by
  have he := entriesFor_same ht hu h f
  refine ⟨fun d => by rw [he], ?_⟩
  intro cfg w magic now
  constructor
  · rintro ⟨a, b, c, d, e, g⟩
    unfold Complete Signed NotExpired Started OnThisMachine at *
    rw [he] at a b d e g
    exact ⟨a, b, c, d, e, g⟩
  · rintro ⟨a, b, c, d, e, g⟩
    unfold Complete Signed NotExpired Started OnThisMachine at *
    rw [← he] at a b d e g
    exact ⟨a, b, c, d, e, g⟩

/-- **C16**: the order of the entries and the value of `sig` do not matter. -/
theorem C16_order {f : Bytes} {kvs kvs' : List (Bytes × Bytes)} (hp : Ini.CleanSection (toUpperCopy f))
    (h : ∀ e ∈ kvs, Ini.CleanKey e.1 ∧ Ini.CleanValue e.2) (h' : ∀ e ∈ kvs', Ini.CleanKey e.1 ∧ Ini.CleanValue e.2)
    (hd : (kvs.map (·.1)).Pairwise (fun a b => ¬ SameCI a b)) (hd' : (kvs'.map (·.1)).Pairwise (fun a b => ¬ SameCI a b))
    (hsame : ∀ k v, k ≠ b!"sig" → ((k, v) ∈ kvs ↔ (k, v) ∈ kvs')) (d : Bytes) :
    SigningData f (entriesFor f (Ini.writeLicense (toUpperCopy f) kvs)) d
    ↔ SigningData f (entriesFor f (Ini.writeLicense (toUpperCopy f) kvs')) d := by
  have key : ∀ {es es' : List (Bytes × Bytes)}, (es.map (·.1)).Pairwise (fun a b => ¬ SameCI a b) →
      (es'.map (·.1)).Pairwise (fun a b => ¬ SameCI a b) → (∀ k v, k ≠ b!"sig" → ((k, v) ∈ es ↔ (k, v) ∈ es')) →
      SigningData f es d → SigningData f es' d := by
    rintro es es' h1 h2 h3 ⟨m, g1, g2, g3⟩
    refine ⟨m, g1, ?_, g3⟩
    intro k v
    rw [g2, isLimit_distinct h1, isLimit_distinct h2]
    constructor
    · rintro ⟨a, b⟩; exact ⟨(h3 k v b).mp a, b⟩
    · rintro ⟨a, b⟩; exact ⟨(h3 k v b).mpr a, b⟩
  unfold entriesFor
  rw [Ini.C17_entries hp h, Ini.C17_entries hp h']
  exact ⟨key hd hd' hsame, key hd' hd (fun k v hk => (hsame k v hk).symm)⟩

/-! ## C15 what the signature does not protect -/

/-- `k` is a prefix of `x`. -/
def Spec.IsPrefix (k x : Bytes) : Prop := ∃ r, x = k ++ r

theorem bytesLt_snoc {x k : Bytes} (c : UInt8) (hx : ¬ IsPrefix k x) :
    bytesLt x (k ++ [c]) = bytesLt x k ∧ bytesLt (k ++ [c]) x = bytesLt k x := by
  induction k generalizing x with
  | nil => exact absurd ⟨x, rfl⟩ hx
  | cons a k ih =>
    cases x with
    | nil => simp [bytesLt]
    | cons b x =>
      simp only [List.cons_append, bytesLt]
      by_cases hab : b = a
      · subst hab
        have : ¬ IsPrefix k x := by
          rintro ⟨r, rfl⟩; exact hx ⟨r, rfl⟩
        simp only [if_true]
        exact ih this
      · have : ¬ a = b := fun h => hab h.symm
        simp [hab, this]

theorem trim_shift {k v : Bytes} {c : UInt8} (hk : trimCopy k = k) (hke : k ≠ []) (hv : trimCopy v = v)
    (hc : isSpace c = false ∧ c ≠ 0) : trimCopy k ++ trimCopy (c :: v) = trimCopy (k ++ [c]) ++ trimCopy v := by
  have headOf : ∀ {s : Bytes}, trimCopy s = s → ∀ b, s.head? = some b → isSpace b = false := by
    intro s hs b hb
    obtain ⟨_, _, _, _, _, h1, _⟩ := C35_trim_spec s
    rw [hs] at h1
    have := h1 b hb; rw [← isSpace_iff] at this; simpa using this
  have lastOf : ∀ {s : Bytes}, trimCopy s = s → ∀ b, s.getLast? = some b → (isSpace b || b == 0) = false := by
    intro s hs b hb
    obtain ⟨_, _, _, _, _, _, h1⟩ := C35_trim_spec s
    rw [hs] at h1
    have := h1 b hb; rw [← isSpace_iff] at this; simpa using this
  have e1 : trimCopy (c :: v) = c :: v := by
    apply trimCopy_eq_self
    · intro b hb; simp at hb; subst hb; exact hc.1
    · intro b hb
      cases v with
      | nil => simp at hb; subst hb; simp [hc]
      | cons x v => rw [List.getLast?_cons_cons] at hb; exact lastOf hv b hb
  have e2 : trimCopy (k ++ [c]) = k ++ [c] := by
    apply trimCopy_eq_self
    · intro b hb
      cases k with
      | nil => exact absurd rfl hke
      | cons x k => simp at hb; subst hb; exact headOf hk _ rfl
    · intro b hb; simp at hb; subst hb; simp [hc]
  rw [hk, hv, e1, e2]
  simp

/-- **C15** (the signature does not protect the boundary between key and value): in a licence without repeated keys, the
    first character of a value may be moved to the end of its key; the signed data stay the same. -/
theorem C15_boundary_not_signed {f : Bytes} {a b : List (Bytes × Bytes)} {k v : Bytes} {c : UInt8}
    (hd : ((a ++ (k, c :: v) :: b).map (·.1)).Pairwise (fun a b => ¬ SameCI a b))
    (hd' : ((a ++ (k ++ [c], v) :: b).map (·.1)).Pairwise (fun a b => ¬ SameCI a b))
    (hk : trimCopy k = k) (hke : k ≠ []) (hv : trimCopy v = v) (hc : isSpace c = false ∧ c ≠ 0)
    (hsig : k ≠ b!"sig" ∧ k ++ [c] ≠ b!"sig") (hpre : ∀ e ∈ a ++ b, ¬ IsPrefix k e.1) (d : Bytes)
    (h : SigningData f (a ++ (k, c :: v) :: b) d) : SigningData f (a ++ (k ++ [c], v) :: b) d := by
  obtain ⟨m, g1, g2, rfl⟩ := h
  have hm : ∀ x y, (x, y) ∈ m ↔ (x, y) ∈ a ++ (k, c :: v) :: b ∧ x ≠ b!"sig" := by
    intro x y; rw [g2, isLimit_distinct hd]
  have hkv : ∀ y, (k, y) ∈ m → y = c :: v := by
    intro y hy
    have := ((hm _ _).mp hy).1
    rcases List.mem_append.mp this with h | h
    · exact absurd ⟨[], by simp⟩ (hpre (k, y) (List.mem_append.mpr (.inl h)))
    · rcases List.mem_cons.mp h with h | h
      · simp at h; exact h
      · exact absurd ⟨[], by simp⟩ (hpre (k, y) (List.mem_append.mpr (.inr h)))
  have hother : ∀ {p}, p ∈ m → p.1 ≠ k → ¬ IsPrefix k p.1 := by
    rintro ⟨x, y⟩ hp hne
    have := ((hm _ _).mp hp).1
    rcases List.mem_append.mp this with h | h
    · exact hpre _ (List.mem_append.mpr (.inl h))
    · rcases List.mem_cons.mp h with h | h
      · simp at h; exact absurd h.1 hne
      · exact hpre _ (List.mem_append.mpr (.inr h))
  let g : Bytes × Bytes → Bytes × Bytes := fun p => if p.1 = k then (k ++ [c], v) else p
  refine ⟨m.map g, ?_, ?_, ?_⟩
  · rw [List.pairwise_map]
    refine g1.imp_of_mem ?_
    intro p q hp hq hlt
    rw [before_iff] at hlt ⊢
    simp only [g]
    by_cases h1 : p.1 = k
    · by_cases h2 : q.1 = k
      · rw [h1, h2, bytesLt_irrefl] at hlt; simp at hlt
      · rw [if_pos h1, if_neg h2]
        simp only
        rw [(bytesLt_snoc c (hother hq h2)).2, ← h1]; exact hlt
    · rw [if_neg h1]
      by_cases h2 : q.1 = k
      · rw [if_pos h2]
        simp only
        rw [(bytesLt_snoc c (hother hp h1)).1, ← h2]; exact hlt
      · rw [if_neg h2]; exact hlt
  · intro x y
    rw [isLimit_distinct hd', List.mem_map]
    constructor
    · rintro ⟨p, hp, he⟩
      simp only [g] at he
      by_cases h1 : p.1 = k
      · rw [if_pos h1] at he
        simp only [Prod.mk.injEq] at he
        obtain ⟨rfl, rfl⟩ := he
        exact ⟨by simp, hsig.2⟩
      · rw [if_neg h1] at he
        subst he
        obtain ⟨h2, h3⟩ := (hm _ _).mp hp
        refine ⟨?_, h3⟩
        rcases List.mem_append.mp h2 with h | h
        · exact List.mem_append.mpr (.inl h)
        · rcases List.mem_cons.mp h with h | h
          · simp at h; exact absurd h.1 h1
          · exact List.mem_append.mpr (.inr (List.mem_cons_of_mem _ h))
    · rintro ⟨h2, h3⟩
      have other : (x, y) ∈ a ++ b → ∃ p ∈ m, g p = (x, y) := by
        intro hab
        refine ⟨(x, y), (hm _ _).mpr ⟨?_, h3⟩, ?_⟩
        · rcases List.mem_append.mp hab with h | h
          · exact List.mem_append.mpr (.inl h)
          · exact List.mem_append.mpr (.inr (List.mem_cons_of_mem _ h))
        · simp only [g]
          rw [if_neg]
          intro hx
          exact hpre _ hab ⟨[], by simpa using hx⟩
      rcases List.mem_append.mp h2 with h | h
      · exact other (List.mem_append.mpr (.inl h))
      · rcases List.mem_cons.mp h with h | h
        · simp only [Prod.mk.injEq] at h
          refine ⟨(k, c :: v), (hm _ _).mpr ⟨by simp, hsig.1⟩, ?_⟩
          simp [g, h.1, h.2]
        · exact other (List.mem_append.mpr (.inr h))
  · congr 1
    rw [List.flatMap_map]
    have : ∀ (m' : List (Bytes × Bytes)), (∀ p ∈ m', p ∈ m) →
        m'.flatMap (fun p => trimCopy p.1 ++ trimCopy p.2) = m'.flatMap fun p => trimCopy (g p).1 ++ trimCopy (g p).2 := by
      intro m'
      induction m' with
      | nil => simp
      | cons p m' ih =>
        intro hh
        rw [List.flatMap_cons, List.flatMap_cons, ih (fun q hq => hh q (by simp [hq]))]
        congr 1
        simp only [g]
        by_cases h1 : p.1 = k
        · rw [if_pos h1]
          obtain ⟨x, y⟩ := p
          simp only at h1
          rw [h1]
          have := hkv y (by rw [← h1]; exact hh _ (by simp))
          rw [this]
          exact trim_shift hk hke hv hc
        · rw [if_neg h1]
    exact this m (fun p hp => hp)

/-- **C15** for the expiry date: a licence file with a `valid-to` entry can be changed, without the key of the issuer, into
    one that never expires and passes the same signature check, whatever that check is (`c` is the first character of the
    date). -/
theorem C15_expiry_removable {f : Bytes} {a b : List (Bytes × Bytes)} {v : Bytes} {c : UInt8}
    (hp : Ini.CleanSection (toUpperCopy f))
    (hc1 : ∀ e ∈ a ++ (b!"valid-to", c :: v) :: b, Ini.CleanKey e.1 ∧ Ini.CleanValue e.2)
    (hc2 : ∀ e ∈ a ++ (b!"valid-to" ++ [c], v) :: b, Ini.CleanKey e.1 ∧ Ini.CleanValue e.2)
    (hd : ((a ++ (b!"valid-to", c :: v) :: b).map (·.1)).Pairwise (fun a b => ¬ SameCI a b))
    (hd' : ((a ++ (b!"valid-to" ++ [c], v) :: b).map (·.1)).Pairwise (fun a b => ¬ SameCI a b))
    (hv : trimCopy v = v) (hc : isSpace c = false ∧ c ≠ 0) (hpre : ∀ e ∈ a ++ b, ¬ IsPrefix (b!"valid-to") e.1)
    {w : World} (h : Signed w f (Ini.writeLicense (toUpperCopy f) (a ++ (b!"valid-to", c :: v) :: b))) :
    Signed w f (Ini.writeLicense (toUpperCopy f) (a ++ (b!"valid-to" ++ [c], v) :: b))
    ∧ ∀ now, NotExpired w f (Ini.writeLicense (toUpperCopy f) (a ++ (b!"valid-to" ++ [c], v) :: b)) now := by
  have e1 : entriesFor f (Ini.writeLicense (toUpperCopy f) (a ++ (b!"valid-to", c :: v) :: b)) = a ++ (b!"valid-to", c :: v) :: b := by
    unfold entriesFor; exact Ini.C17_entries hp hc1
  have e2 : entriesFor f (Ini.writeLicense (toUpperCopy f) (a ++ (b!"valid-to" ++ [c], v) :: b)) = a ++ (b!"valid-to" ++ [c], v) :: b := by
    unfold entriesFor; exact Ini.C17_entries hp hc2
  have notSig : ∀ (x : Bytes), ¬ SameCI (b!"valid-to" ++ x) (b!"sig") := by
    rintro x ⟨hl, _⟩; simp at hl
  constructor
  · obtain ⟨s, data, h1, h2, h3⟩ := h
    rw [e1] at h1 h2
    refine ⟨s, data, ?_, ?_, h3⟩
    · rw [e2]
      unfold lastValue at h1 ⊢
      rw [List.filter_append, List.filter_cons, if_neg (by simpa using notSig [])] at h1
      rw [List.filter_append, List.filter_cons, if_neg (by simpa using notSig [c])]
      exact h1
    · rw [e2]
      exact C15_boundary_not_signed hd hd' (by decide) (by decide) hv hc
        ⟨by decide, by intro hh; have := congrArg List.length hh; simp at this⟩ hpre data h2
  · intro now d hlim
    rw [e2, isLimit_distinct hd'] at hlim
    exfalso
    rcases List.mem_append.mp hlim with h | h
    · exact hpre _ (List.mem_append.mpr (.inl h)) ⟨[], by simp⟩
    · rcases List.mem_cons.mp h with h | h
      · simp at h
      · exact hpre _ (List.mem_append.mpr (.inr h)) ⟨[], by simp⟩

/-- An expired licence, and the same file with one character moved. -/
def expiredText : Bytes := b!"[TEST]\nlic_ver = 200\nvalid-to = 20200101\nsig = QUJD\n"
def forgedText : Bytes := b!"[TEST]\nlic_ver = 200\nvalid-to2 = 0200101\nsig = QUJD\n"

/-- A signature check that accepts one set of data only: those of `expiredText`. -/
def strictWorld (text : Bytes) : World :=
  { sampleWorld sampleNow with
    verify := fun d s => .ok (d = b!"TESTlic_ver200valid-to20200101" && s = b!"QUJD")
    read := fun _ => some text }

/-- **C15** on a concrete call: with the same signature check the original is refused because it has expired, the changed
    file is accepted. -/
theorem C15_forgery_accepted :
    retOf (acquire sampleConfig (strictWorld expiredText) (some sampleCaller) none none) = some .productExpired
    ∧ retOf (acquire sampleConfig (strictWorld forgedText) (some sampleCaller) none none) = some .licenseOk := by
  decide +kernel

/-- **C15**, what holds: two licences for the same feature with the same keys and values of the same lengths and the same
    signed data have the same values (up to white space at the ends). -/
theorem C15_same_shape {f : Bytes} {es es' : List (Bytes × Bytes)} {d : Bytes} (h : SigningData f es d) (h' : SigningData f es' d)
    (hkeys : ∀ k, k ≠ b!"sig" → ((∃ v, IsLimit es k v) ↔ ∃ v, IsLimit es' k v))
    (hlen : ∀ k v v', k ≠ b!"sig" → IsLimit es k v → IsLimit es' k v' → (trimCopy v).length = (trimCopy v').length)
    {k v v' : Bytes} (hk : k ≠ b!"sig") (hv : IsLimit es k v) (hv' : IsLimit es' k v') : trimCopy v = trimCopy v' := by
  obtain ⟨m, a1, a2, a3⟩ := h
  obtain ⟨m', b1, b2, b3⟩ := h'
  replace a1 : m.Pairwise (fun a b => bytesLt a.1 b.1 = true) := a1.imp fun h => before_iff.mp h
  replace b1 : m'.Pairwise (fun a b => bytesLt a.1 b.1 = true) := b1.imp fun h => before_iff.mp h
  have e : m.flatMap (fun p => trimCopy p.1 ++ trimCopy p.2) = m'.flatMap (fun p => trimCopy p.1 ++ trimCopy p.2) := by
    rw [a3] at b3; exact List.append_cancel_left b3
  have kk : ∀ k, (∃ v, (k, v) ∈ m) ↔ ∃ v, (k, v) ∈ m' := by
    intro k
    constructor
    · rintro ⟨v, hv⟩
      obtain ⟨h1, h2⟩ := (a2 _ _).mp hv
      obtain ⟨v', h3⟩ := (hkeys k h2).mp ⟨v, h1⟩
      exact ⟨v', (b2 _ _).mpr ⟨h3, h2⟩⟩
    · rintro ⟨v, hv⟩
      obtain ⟨h1, h2⟩ := (b2 _ _).mp hv
      obtain ⟨v', h3⟩ := (hkeys k h2).mpr ⟨v, h1⟩
      exact ⟨v', (a2 _ _).mpr ⟨h3, h2⟩⟩
  have ll : ∀ k v v', (k, v) ∈ m → (k, v') ∈ m' → (trimCopy v).length = (trimCopy v').length := by
    intro k v v' h1 h2
    obtain ⟨h3, h4⟩ := (a2 _ _).mp h1
    exact hlen k v v' h4 h3 ((b2 _ _).mp h2).1
  have main : ∀ (m m' : List (Bytes × Bytes)), m.Pairwise (fun a b => bytesLt a.1 b.1 = true) →
      m'.Pairwise (fun a b => bytesLt a.1 b.1 = true) → (∀ k, (∃ v, (k, v) ∈ m) ↔ ∃ v, (k, v) ∈ m') →
      (∀ k v v', (k, v) ∈ m → (k, v') ∈ m' → (trimCopy v).length = (trimCopy v').length) →
      m.flatMap (fun p => trimCopy p.1 ++ trimCopy p.2) = m'.flatMap (fun p => trimCopy p.1 ++ trimCopy p.2) →
      ∀ k v v', (k, v) ∈ m → (k, v') ∈ m' → trimCopy v = trimCopy v' := by
    intro m
    induction m with
    | nil => simp
    | cons p m ih =>
      intro m' hs hs' hk hl he
      cases m' with
      | nil => simp
      | cons q m' =>
        obtain ⟨x, v⟩ := p
        obtain ⟨y, v'⟩ := q
        simp only [List.pairwise_cons] at hs hs'
        have hxy : x = y := by
          rcases bytesLt_total x y with h | h | h
          · exact h
          · obtain ⟨u, hu⟩ := (hk x).mp ⟨v, by simp⟩
            rcases List.mem_cons.mp hu with hu | hu
            · simp at hu; exact hu.1
            · have := bytesLt_trans h (hs'.1 _ hu); rw [bytesLt_irrefl] at this; simp at this
          · obtain ⟨u, hu⟩ := (hk y).mpr ⟨v', by simp⟩
            rcases List.mem_cons.mp hu with hu | hu
            · simp at hu; exact hu.1.symm
            · have := bytesLt_trans h (hs.1 _ hu); rw [bytesLt_irrefl] at this; simp at this
        subst hxy
        have hlv := hl x v v' (by simp) (by simp)
        rw [List.flatMap_cons, List.flatMap_cons] at he
        simp only [List.append_assoc] at he
        have he2 := List.append_cancel_left he
        obtain ⟨hv, hrest⟩ := List.append_inj he2 hlv
        have hne : ∀ {u}, (x, u) ∉ m := fun hu => by have := hs.1 _ hu; rw [bytesLt_irrefl] at this; simp at this
        have hne' : ∀ {u}, (x, u) ∉ m' := fun hu => by have := hs'.1 _ hu; rw [bytesLt_irrefl] at this; simp at this
        have ih := ih m' hs.2 hs'.2 (by
          intro k
          have := hk k
          constructor
          · rintro ⟨u, hu⟩
            obtain ⟨u', hu'⟩ := this.mp ⟨u, by simp [hu]⟩
            rcases List.mem_cons.mp hu' with h | h
            · simp at h; rw [h.1] at hu; exact absurd hu hne
            · exact ⟨u', h⟩
          · rintro ⟨u, hu⟩
            obtain ⟨u', hu'⟩ := this.mpr ⟨u, by simp [hu]⟩
            rcases List.mem_cons.mp hu' with h | h
            · simp at h; rw [h.1] at hu; exact absurd hu hne'
            · exact ⟨u', h⟩) (fun k v v' h1 h2 => hl k v v' (by simp [h1]) (by simp [h2])) hrest
        intro k u u' hu hu'
        rcases List.mem_cons.mp hu with h | h
        · simp at h
          obtain ⟨rfl, rfl⟩ := h
          rcases List.mem_cons.mp hu' with h' | h'
          · simp at h'; rw [h']; exact hv
          · exact absurd h' hne'
        · rcases List.mem_cons.mp hu' with h' | h'
          · simp at h'; rw [h'.1] at h; exact absurd h hne
          · exact ih k u u' h h'
  exact main m m' a1 b1 kk ll e k v v' ((a2 _ _).mpr ⟨hv, hk⟩) ((b2 _ _).mpr ⟨hv', hk⟩)

end Licensecc
