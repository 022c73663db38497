import Verif.Spec.Network
import Verif.Props.Identify
/-!
# C46: network adapters
-/
namespace Licensecc
open Spec

theorem loopback_bit (f : UInt32) : f &&& 8 ≠ 0 ↔ ¬ f.toNat / 8 % 2 = 0 := by
  have h1 : (f.toNat &&& 8) / 2 ^ 3 = f.toNat / 8 % 2 := by
    rw [← Nat.shiftRight_eq_div_pow, Nat.shiftRight_and_distrib, Nat.shiftRight_eq_div_pow]
    exact Nat.and_two_pow_sub_one_eq_mod _ 1
  have h2 : (f.toNat &&& 8) % 2 ^ 3 = 0 := by
    rw [Nat.and_mod_two_pow]; simp
  have h : (f &&& 8) = 0 ↔ f.toNat / 8 % 2 = 0 := by
    rw [← UInt32.toNat_inj, UInt32.toNat_and]
    show f.toNat &&& 8 = 0 ↔ _
    omega
  rw [ne_eq, h]

theorem ipOfAddr_eq (a : UInt32) : ipOfAddr a = memoryBytes a := by
  unfold ipOfAddr memoryBytes
  have key : ∀ (mask : UInt32) (k : UInt32) (j : Nat), k.toNat = j → j < 32 → mask.toNat >>> j = 2 ^ 8 - 1 →
      ((a &&& mask) >>> k).toUInt8 = UInt8.ofNat (a.toNat / 2 ^ j) := by
    intro mask k j hk hj hm
    apply UInt8.toNat_inj.mp
    rw [UInt32.toNat_toUInt8, UInt32.toNat_shiftRight, UInt32.toNat_and, hk, Nat.mod_eq_of_lt hj, Nat.shiftRight_and_distrib, hm,
      Nat.and_two_pow_sub_one_eq_mod, Nat.shiftRight_eq_div_pow]
    simp
  have h0 := key 0x000000ff 0 0 (by decide) (by decide) (by decide)
  have h1 := key 0x0000ff00 8 8 (by decide) (by decide) (by decide)
  have h2 := key 0x00ff0000 16 16 (by decide) (by decide) (by decide)
  have h3 := key 0xff000000 24 24 (by decide) (by decide) (by decide)
  rw [h1, h2, h3]
  have : (a &&& 0x000000ff).toUInt8 = UInt8.ofNat a.toNat := by
    rw [Nat.pow_zero, Nat.div_one] at h0
    rw [← h0]; congr 1
  rw [this]

/-- The state of the map after some entries. -/
def MapIs (es : List IfEntry) (m : AdapterMap) : Prop :=
  m.Pairwise (fun p q => p.1 ≠ q.1) ∧ ∀ name a, (name, a) ∈ m ↔ IsInterface es name ∧ a = adapterOf es name

theorem ensure_spec {es : List IfEntry} {m : AdapterMap} (h : MapIs es m) (name : Bytes) :
    (m.ensure name).Pairwise (fun p q => p.1 ≠ q.1)
    ∧ ∀ n a, (n, a) ∈ m.ensure name ↔ (IsInterface es n ∧ a = adapterOf es n) ∨ (n = name ∧ ¬ IsInterface es name
        ∧ a = ⟨⟨0, 0, 0, 0, 0, 0⟩, ⟨0, 0, 0, 0⟩⟩) := by
  have hany : m.any (fun p => p.1 = name) = true ↔ IsInterface es name := by
    rw [List.any_eq_true]
    constructor
    · rintro ⟨⟨n, a⟩, hm, hn⟩
      simp at hn; subst hn; exact ((h.2 _ _).mp hm).1
    · intro hi; exact ⟨(name, adapterOf es name), (h.2 _ _).mpr ⟨hi, rfl⟩, by simp⟩
  unfold AdapterMap.ensure
  by_cases hi : IsInterface es name
  · rw [if_pos (hany.mpr hi)]
    refine ⟨h.1, fun n a => ?_⟩
    rw [h.2]
    exact ⟨.inl, fun hh => hh.elim id fun h3 => absurd hi h3.2.1⟩
  · rw [if_neg (fun h3 => hi (hany.mp h3))]
    refine ⟨?_, fun n a => ?_⟩
    · rw [List.pairwise_append]
      refine ⟨h.1, by simp, ?_⟩
      rintro ⟨n, a⟩ hm q hq
      simp at hq; subst hq
      rintro rfl
      exact hi ((h.2 _ _).mp hm).1
    · rw [List.mem_append, h.2]
      simp only [List.mem_singleton, Prod.mk.injEq]
      constructor
      · rintro (h3 | ⟨rfl, rfl⟩)
        · exact .inl h3
        · exact .inr ⟨rfl, hi, rfl⟩
      · rintro (h3 | ⟨rfl, _, rfl⟩)
        · exact .inl h3
        · exact .inr ⟨rfl, rfl⟩

theorem isInterface_snoc (es : List IfEntry) (e : IfEntry) (n : Bytes) :
    IsInterface (es ++ [e]) n ↔ IsInterface es n ∨ (Counts e ∧ ifName e = n) := by
  unfold IsInterface
  constructor
  · rintro ⟨x, hx, h⟩
    rcases List.mem_append.mp hx with hx | hx
    · exact .inl ⟨x, hx, h⟩
    · simp at hx; subst hx; exact .inr h
  · rintro (⟨x, hx, h⟩ | h)
    · exact ⟨x, by simp [hx], h⟩
    · exact ⟨e, by simp, h⟩

theorem adapterOf_snoc (es : List IfEntry) (e : IfEntry) (n : Bytes) : adapterOf (es ++ [e]) n =
    ⟨((macsOf [e] n).getLast?).getD (adapterOf es n).mac, ((addressesOf [e] n).getLast?).getD (adapterOf es n).ip⟩ := by
  have hm : macsOf (es ++ [e]) n = macsOf es n ++ macsOf [e] n := by simp [macsOf, List.filterMap_append]
  have ha : addressesOf (es ++ [e]) n = addressesOf es n ++ addressesOf [e] n := by simp [addressesOf, List.filterMap_append]
  unfold adapterOf
  rw [hm, ha, List.getLast?_append, List.getLast?_append]
  cases (macsOf [e] n).getLast? <;> cases (addressesOf [e] n).getLast? <;> simp

theorem adapterOf_none (es : List IfEntry) (n : Bytes) (h : ¬ IsInterface es n) :
    adapterOf es n = ⟨⟨0, 0, 0, 0, 0, 0⟩, ⟨0, 0, 0, 0⟩⟩ := by
  have h1 : macsOf es n = [] := by
    unfold macsOf
    rw [List.filterMap_eq_nil_iff]
    intro e he
    split
    · split
      · rename_i h2; exact absurd ⟨e, he, h2.1, h2.2.1⟩ h
      · rfl
    · rfl
  have h2 : addressesOf es n = [] := by
    unfold addressesOf
    rw [List.filterMap_eq_nil_iff]
    intro e he
    split
    · split
      · rename_i h2; exact absurd ⟨e, he, h2.1, h2.2⟩ h
      · rfl
    · rfl
  unfold adapterOf; rw [h1, h2]; rfl

theorem update_spec (m : AdapterMap) (name : Bytes) (f : Adapter → Adapter) (hp : m.Pairwise (fun p q => p.1 ≠ q.1)) :
    (m.update name f).Pairwise (fun p q => p.1 ≠ q.1)
    ∧ ∀ n a, (n, a) ∈ m.update name f ↔ ∃ b, (n, b) ∈ m ∧ a = if n = name then f b else b := by
  unfold AdapterMap.update
  refine ⟨?_, fun n a => ?_⟩
  · rw [List.pairwise_map]
    refine hp.imp fun {p q} h => ?_
    split <;> split <;> exact h
  · rw [List.mem_map]
    constructor
    · rintro ⟨⟨n', b⟩, hm, h⟩
      split at h
      · simp at h; obtain ⟨rfl, rfl⟩ := h; exact ⟨b, hm, by simp_all⟩
      · simp at h; obtain ⟨rfl, rfl⟩ := h; exact ⟨b, hm, by simp_all⟩
    · rintro ⟨b, hm, rfl⟩
      refine ⟨(n, b), hm, ?_⟩
      by_cases h : n = name <;> simp [h]

theorem addIfEntry_spec {es : List IfEntry} {m : AdapterMap} (h : MapIs es m) (e : IfEntry) : MapIs (es ++ [e]) (addIfEntry e m) := by
  have skip : ¬ Counts e → MapIs (es ++ [e]) m := by
    intro hc
    have hm : ∀ n, macsOf [e] n = [] := by
      intro n; unfold macsOf; rw [List.filterMap_cons]
      cases e.addr with
      | none => rfl
      | some a => cases a <;> simp [hc]
    have ha : ∀ n, addressesOf [e] n = [] := by
      intro n; unfold addressesOf; rw [List.filterMap_cons]
      cases e.addr with
      | none => rfl
      | some a => cases a <;> simp [hc]
    refine ⟨h.1, fun n a => ?_⟩
    rw [h.2, isInterface_snoc, adapterOf_snoc, hm, ha]
    simp [hc]
  unfold addIfEntry
  cases haddr : e.addr with
  | none => exact skip (by unfold Counts; simp [haddr])
  | some ad =>
    dsimp only
    by_cases hl : e.flags &&& 8 ≠ 0
    · rw [if_pos hl]
      exact skip fun hc => (loopback_bit _).mp hl hc.2
    · rw [if_neg hl]
      have hc : Counts e := ⟨by simp [haddr], by
        have := mt (loopback_bit e.flags).mpr hl; exact Decidable.not_not.mp this⟩
      obtain ⟨e1, e2⟩ := ensure_spec h (e.name.take 1025)
      have hname : e.name.take 1025 = ifName e := rfl
      rw [hname] at e1 e2 ⊢
      -- what the map says after `ensure`
      have e3 : ∀ n a, (n, a) ∈ m.ensure (ifName e) ↔ IsInterface (es ++ [e]) n ∧ a = adapterOf es n := by
        intro n a
        rw [e2, isInterface_snoc]
        constructor
        · rintro (⟨h1, h2⟩ | ⟨rfl, h1, rfl⟩)
          · exact ⟨.inl h1, h2⟩
          · exact ⟨.inr ⟨hc, rfl⟩, (adapterOf_none es _ h1).symm⟩
        · rintro ⟨h1 | ⟨_, rfl⟩, rfl⟩
          · exact .inl ⟨h1, rfl⟩
          · by_cases hi : IsInterface es (ifName e)
            · exact .inl ⟨hi, rfl⟩
            · exact .inr ⟨rfl, hi, adapterOf_none es _ hi⟩
      have finish : ∀ (f : Adapter → Adapter), (∀ n, adapterOf (es ++ [e]) n = if n = ifName e then f (adapterOf es n) else adapterOf es n) →
          MapIs (es ++ [e]) ((m.ensure (ifName e)).update (ifName e) f) := by
        intro f hf
        obtain ⟨u1, u2⟩ := update_spec _ (ifName e) f e1
        refine ⟨u1, fun n a => ?_⟩
        rw [u2, hf]
        constructor
        · rintro ⟨b, hb, rfl⟩
          obtain ⟨h1, rfl⟩ := (e3 _ _).mp hb
          exact ⟨h1, rfl⟩
        · rintro ⟨h1, rfl⟩
          exact ⟨_, (e3 _ _).mpr ⟨h1, rfl⟩, rfl⟩
      have stay : (∀ n, adapterOf (es ++ [e]) n = adapterOf es n) → MapIs (es ++ [e]) (m.ensure (ifName e)) := by
        intro hf
        refine ⟨e1, fun n a => ?_⟩
        rw [e3, hf]
      cases ad with
      | inet ip =>
        apply finish
        intro n
        rw [adapterOf_snoc]
        by_cases hn : n = ifName e
        · subst hn; simp [macsOf, addressesOf, haddr, hc, ipOfAddr_eq]
        · have hn' : ¬ ifName e = n := fun h => hn h.symm
          simp [macsOf, addressesOf, haddr, hn, hn']
      | packet mac =>
        dsimp only
        by_cases hd : e.hasData = true
        · rw [if_pos hd]
          apply finish
          intro n
          rw [adapterOf_snoc]
          by_cases hn : n = ifName e
          · subst hn; simp [macsOf, addressesOf, haddr, hc, hd]
          · have hn' : ¬ ifName e = n := fun h => hn h.symm
            simp [macsOf, addressesOf, haddr, hn, hn']
        · rw [if_neg hd]
          apply stay
          intro n
          rw [adapterOf_snoc]
          simp [macsOf, addressesOf, haddr, hd]
      | other =>
        apply stay
        intro n
        rw [adapterOf_snoc]
        simp [macsOf, addressesOf, haddr]

theorem adapterMap_spec (es : List IfEntry) : MapIs es (adapterMap es) := by
  have : ∀ (rest done : List IfEntry) (m : AdapterMap), MapIs done m → MapIs (done ++ rest) (rest.foldl (fun m e => addIfEntry e m) m) := by
    intro rest
    induction rest with
    | nil => intro done m h; simpa using h
    | cons e rest ih =>
      intro done m h
      have := ih (done ++ [e]) _ (addIfEntry_spec h e)
      simpa using this
  have h0 : MapIs [] [] := ⟨.nil, by simp [IsInterface]⟩
  exact this es [] [] h0

/-- **C46**: one adapter for every interface that is not a loopback, with its last hardware and IPv4 addresses; whatever the order
    in which the map is visited. -/
theorem C46_adapters {h : NetHost} (ho : h.Ordered) {es : List IfEntry} (he : h.ifaddrs = some es) (hne : ∃ name, IsInterface es name) :
    ∃ l, getAdapterInfosNamed h = (.ok, l) ∧ l.Pairwise (fun p q => p.1 ≠ q.1)
      ∧ ∀ name a, (name, a) ∈ l ↔ IsInterface es name ∧ a = adapterOf es name := by
  obtain ⟨h1, h2⟩ := adapterMap_spec es
  refine ⟨h.order (adapterMap es), ?_, ?_, fun name a => ?_⟩
  · unfold getAdapterInfosNamed
    rw [he]
    obtain ⟨name, hn⟩ := hne
    have := (h2 name _).mpr ⟨hn, rfl⟩
    have hl : (adapterMap es).length ≠ 0 := fun h0 => by
      rw [List.length_eq_zero_iff] at h0; rw [h0] at this; simp at this
    simp [hl]
  · exact (ho _).symm.pairwise h1 (fun hab => fun hba => hab hba.symm)
  · rw [(ho _).mem_iff]; exact h2 name a

/-- **C46**: without such an interface nothing is available, and a failing system call is an error. -/
theorem C46_none (h : NetHost) : ((getAdapterInfosNamed h).1 = .notAvail ↔ ∃ es, h.ifaddrs = some es ∧ ∀ name, ¬ IsInterface es name)
    ∧ (getAdapterInfosNamed h = (.error, []) ↔ h.ifaddrs = none) := by
  unfold getAdapterInfosNamed
  cases he : h.ifaddrs with
  | none => simp
  | some es =>
    obtain ⟨h1, h2⟩ := adapterMap_spec es
    dsimp only
    have : (adapterMap es).length = 0 ↔ ∀ name, ¬ IsInterface es name := by
      rw [List.length_eq_zero_iff]
      constructor
      · intro h0 name hn
        have := (h2 name _).mpr ⟨hn, rfl⟩
        rw [h0] at this; simp at this
      · intro hn
        cases hm : adapterMap es with
        | nil => rfl
        | cons p m => exact absurd ((h2 p.1 p.2).mp (by rw [hm]; simp)).1 (hn _)
    by_cases h0 : (adapterMap es).length = 0
    · simp [h0, this.mp h0]
    · rw [if_neg h0]
      simp
      exact Classical.not_forall.mp (fun hh => h0 (this.mpr hh)) |>.imp fun _ h => Classical.not_not.mp h

/-- **C46**: loopback interfaces never appear. -/
theorem C46_no_loopback {h : NetHost} (ho : h.Ordered) {es : List IfEntry} (he : h.ifaddrs = some es) {name : Bytes} {a : Adapter}
    (hm : (name, a) ∈ (getAdapterInfosNamed h).2) : ∃ e ∈ es, ifName e = name ∧ e.flags.toNat / 8 % 2 = 0 := by
  by_cases hne : ∃ name, IsInterface es name
  · obtain ⟨l, h1, _, h3⟩ := C46_adapters ho he hne
    rw [h1] at hm
    obtain ⟨e, he1, he2, he3⟩ := ((h3 _ _).mp hm).1
    exact ⟨e, he1, he3, he2.2⟩
  · have h0 : (getAdapterInfosNamed h).1 = .notAvail := (C46_none h).1.mpr ⟨es, he, fun n hn => hne ⟨n, hn⟩⟩
    unfold getAdapterInfosNamed at hm h0
    rw [he] at hm h0
    by_cases hl : (adapterMap es).length = 0
    · simp [hl] at hm
    · simp [hl] at h0

/-- **C46**: the order of the enumeration does not matter if no interface has two addresses of a kind. -/
theorem C46_any_order {h h' : NetHost} (ho : h.Ordered) (ho' : h'.Ordered) {es es' : List IfEntry} (he : h.ifaddrs = some es)
    (he' : h'.ifaddrs = some es') (hp : es.Perm es') (h1 : OneAddressEach es) :
    (getAdapterInfos h).1 = (getAdapterInfos h').1 ∧ (getAdapterInfos h).2.Perm (getAdapterInfos h').2 := by
  have hi : ∀ n, IsInterface es n ↔ IsInterface es' n := fun n => by
    unfold IsInterface
    constructor
    · rintro ⟨e, he, h⟩; exact ⟨e, hp.mem_iff.mp he, h⟩
    · rintro ⟨e, he, h⟩; exact ⟨e, hp.mem_iff.mpr he, h⟩
  have hperm1 : ∀ {α : Type} {a b : List α}, a.Perm b → a.length ≤ 1 → a = b := by
    intro α a b hab hl
    match a, hl with
    | [], _ => exact (List.nil_perm.mp hab).symm
    | [x], _ => exact List.singleton_perm.mp hab
  have ha : ∀ n, adapterOf es n = adapterOf es' n := fun n => by
    have ha1 : addressesOf es n = addressesOf es' n := hperm1 (hp.filterMap _) (h1 n).1
    have ha2 : macsOf es n = macsOf es' n := hperm1 (hp.filterMap _) (h1 n).2
    unfold adapterOf
    rw [ha1, ha2]
  obtain ⟨p1, p2⟩ := adapterMap_spec es
  obtain ⟨q1, q2⟩ := adapterMap_spec es'
  have nodup : ∀ {m : AdapterMap}, m.Pairwise (fun p q => p.1 ≠ q.1) → m.Nodup := fun hm => hm.imp fun hpq he => hpq (by rw [he])
  have hpm : (adapterMap es).Perm (adapterMap es') := by
    rw [List.perm_ext_iff_of_nodup (nodup p1) (nodup q1)]
    rintro ⟨n, a⟩
    rw [p2, q2, hi, ha]
  unfold getAdapterInfos getAdapterInfosNamed
  rw [he, he']
  dsimp only
  by_cases h0 : (adapterMap es).length = 0
  · rw [if_pos h0, if_pos (by rw [← hpm.length_eq]; exact h0)]
    exact ⟨rfl, .refl _⟩
  · rw [if_neg h0, if_neg (by rw [← hpm.length_eq]; exact h0)]
    exact ⟨rfl, (((ho _).trans hpm).trans (ho' _).symm).map _⟩

/-! ## Example -/

def sampleNet : NetHost where
  ifaddrs := some [⟨b!"lo", 73, some (.packet ⟨0, 0, 0, 0, 0, 0⟩), true⟩, ⟨b!"eth0", 4163, some (.packet ⟨2, 0x42, 0xac, 17, 0, 2⟩), true⟩,
    ⟨b!"tun0", 4305, none, false⟩, ⟨b!"lo", 73, some (.inet 0x0100007f), true⟩, ⟨b!"wlan0", 4163, some (.inet 0x0200a8c0), true⟩,
    ⟨b!"eth0", 4163, some (.inet 0x0300a8c0), true⟩, ⟨b!"eth0", 4163, some .other, true⟩]
  order := List.reverse

theorem sampleNet_ordered : sampleNet.Ordered := fun l => List.reverse_perm l

example : getAdapterInfosNamed sampleNet = (.ok, [(b!"wlan0", ⟨⟨0, 0, 0, 0, 0, 0⟩, ⟨192, 168, 0, 2⟩⟩),
    (b!"eth0", ⟨⟨2, 0x42, 0xac, 17, 0, 2⟩, ⟨192, 168, 0, 3⟩⟩)]) := by decide +kernel

end Licensecc
