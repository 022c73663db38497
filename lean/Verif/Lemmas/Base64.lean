import Verif.Model.Base64
/-!
# Helper lemmas about base64
-/
namespace Licensecc

theorem unb64Table_length : unb64Table.length = 256 := by decide +kernel

/-- Lifting a decidable fact from all `n < k`. -/
theorem unb64_b64Char : ∀ i, i < 64 → unb64 (b64Char i) = i := by decide +kernel
theorem b64Char_ne_nl : ∀ i, i < 64 → b64Char i ≠ 10 := by decide +kernel
theorem b64Char_ne_eq : ∀ i, i < 64 → b64Char i ≠ 61 := by decide +kernel

theorem forall_uint8 {P : UInt8 → Prop} (h : ∀ n : Fin 256, P (UInt8.ofNat n.val)) (b : UInt8) : P b := by
  have := h ⟨b.toNat, b.toNat_lt⟩
  simpa using this

theorem unb64_lt (b : UInt8) : unb64 b < 64 := by
  revert b; apply forall_uint8; decide +kernel

/-- The characters of the encoding, without line breaks. -/
def encodeChars : Bytes → Bytes
  | a :: b :: c :: rest =>
      b64Char (a.toNat / 4) :: b64Char ((a.toNat % 4) * 16 + b.toNat / 16)
        :: b64Char ((b.toNat % 16) * 4 + c.toNat / 64) :: b64Char (c.toNat % 64) :: encodeChars rest
  | [a, b] =>
      [b64Char (a.toNat / 4), b64Char ((a.toNat % 4) * 16 + b.toNat / 16), b64Char ((b.toNat % 16) * 4), 61]
  | [a] => [b64Char (a.toNat / 4), b64Char ((a.toNat % 4) * 16), 61, 61]
  | [] => []

def notNL (b : UInt8) : Bool := !(b == 10)

theorem filter_putChar (ll : Int) (buf : Bytes) (c : UInt8) (hc : c ≠ 10) :
    (putChar ll buf c).filter notNL = buf.filter notNL ++ [c] := by
  unfold putChar
  have : notNL c = true := by simp [notNL, hc]
  have h10 : notNL 10 = false := by decide
  split <;> simp [this, h10]

theorem idx1 (a : UInt8) : a.toNat / 4 < 64 := by have := a.toNat_lt; omega
theorem idx2 (a b : UInt8) : (a.toNat % 4) * 16 + b.toNat / 16 < 64 := by have := b.toNat_lt; omega
theorem idx2' (a : UInt8) : (a.toNat % 4) * 16 < 64 := by omega
theorem idx3 (a b : UInt8) : (a.toNat % 16) * 4 + b.toNat / 64 < 64 := by have := b.toNat_lt; omega
theorem idx3' (a : UInt8) : (a.toNat % 16) * 4 < 64 := by omega
theorem idx4 (a : UInt8) : a.toNat % 64 < 64 := by omega

theorem filter_encodeLoop (ll : Int) (bs : Bytes) : ∀ buf,
    (encodeLoop ll buf bs).filter notNL = buf.filter notNL ++ encodeChars bs := by
  fun_induction encodeChars bs with
  | case1 a b c rest ih =>
    intro buf
    simp only [encodeLoop]
    rw [ih, filter_putChar _ _ _ (b64Char_ne_nl _ (idx4 c)), filter_putChar _ _ _ (b64Char_ne_nl _ (idx3 b c)),
      filter_putChar _ _ _ (b64Char_ne_nl _ (idx2 a b)), filter_putChar _ _ _ (b64Char_ne_nl _ (idx1 a))]
    simp
  | case2 a b =>
    intro buf
    simp only [encodeLoop]
    rw [filter_putChar _ _ _ (by decide), filter_putChar _ _ _ (b64Char_ne_nl _ (idx3' b)),
      filter_putChar _ _ _ (b64Char_ne_nl _ (idx2 a b)), filter_putChar _ _ _ (b64Char_ne_nl _ (idx1 a))]
    simp
  | case3 a =>
    intro buf
    simp only [encodeLoop]
    rw [filter_putChar _ _ _ (by decide), filter_putChar _ _ _ (by decide),
      filter_putChar _ _ _ (b64Char_ne_nl _ (idx2' a)), filter_putChar _ _ _ (b64Char_ne_nl _ (idx1 a))]
    simp
  | case4 => intro buf; simp [encodeLoop]

theorem or_add_shift (x y k : Nat) (hy : y < 2 ^ k) : (x * 2 ^ k) ||| y = x * 2 ^ k + y := by
  rw [Nat.mul_comm, Nat.two_pow_add_eq_or_of_lt hy]

theorem ofNat_toNat_eq (b : UInt8) (n : Nat) (h : n % 256 = b.toNat) : UInt8.ofNat n = b := by
  apply UInt8.toNat_inj.mp
  simpa using h

theorem dec_first (a b : UInt8) :
    UInt8.ofNat ((a.toNat / 4) * 4 ||| ((a.toNat % 4) * 16 + b.toNat / 16) / 16) = a := by
  have := b.toNat_lt; have ha := a.toNat_lt
  have h := or_add_shift (a.toNat / 4) (((a.toNat % 4) * 16 + b.toNat / 16) / 16) 2 (by omega)
  simp only [show (2:Nat)^2 = 4 from rfl] at h
  rw [h]; apply ofNat_toNat_eq; omega

theorem dec_first' (a : UInt8) :
    UInt8.ofNat ((a.toNat / 4) * 4 ||| ((a.toNat % 4) * 16) / 16) = a := by
  have ha := a.toNat_lt
  have h := or_add_shift (a.toNat / 4) (((a.toNat % 4) * 16) / 16) 2 (by omega)
  simp only [show (2:Nat)^2 = 4 from rfl] at h
  rw [h]; apply ofNat_toNat_eq; omega

theorem dec_second (a b c : UInt8) :
    UInt8.ofNat (((a.toNat % 4) * 16 + b.toNat / 16) * 16 ||| ((b.toNat % 16) * 4 + c.toNat / 64) / 4) = b := by
  have := b.toNat_lt; have hc := c.toNat_lt
  have h := or_add_shift ((a.toNat % 4) * 16 + b.toNat / 16) (((b.toNat % 16) * 4 + c.toNat / 64) / 4) 4 (by omega)
  simp only [show (2:Nat)^4 = 16 from rfl] at h
  rw [h]; apply ofNat_toNat_eq; omega

theorem dec_second' (a b : UInt8) :
    UInt8.ofNat (((a.toNat % 4) * 16 + b.toNat / 16) * 16 ||| ((b.toNat % 16) * 4) / 4) = b := by
  have := b.toNat_lt
  have h := or_add_shift ((a.toNat % 4) * 16 + b.toNat / 16) (((b.toNat % 16) * 4) / 4) 4 (by omega)
  simp only [show (2:Nat)^4 = 16 from rfl] at h
  rw [h]; apply ofNat_toNat_eq; omega

theorem dec_third (b c : UInt8) :
    UInt8.ofNat (((b.toNat % 16) * 4 + c.toNat / 64) * 64 ||| (c.toNat % 64)) = c := by
  have := b.toNat_lt; have hc := c.toNat_lt
  have h := or_add_shift ((b.toNat % 16) * 4 + c.toNat / 64) (c.toNat % 64) 6 (by omega)
  simp only [show (2:Nat)^6 = 64 from rfl] at h
  rw [h]; apply ofNat_toNat_eq; omega

theorem encodeChars_length (bs : Bytes) : (encodeChars bs).length = 4 * ((bs.length + 2) / 3) := by
  fun_induction encodeChars bs <;> simp_all <;> omega

/-- Decoding the full groups of an encoding. -/
theorem decodeLoop_full (bound : Nat) (bs rest : Bytes) (h3 : bs.length % 3 = 0) : ∀ pos,
    (bs ≠ [] → pos + 4 * (bs.length / 3) ≤ bound + 4) → bound < pos + 4 * (bs.length / 3) →
    decodeLoop bound pos (encodeChars bs ++ rest) = .ok (bs, rest) := by
  fun_induction encodeChars bs with
  | case1 a b c tl ih =>
    intro pos h1 h2
    have hlen : (a :: b :: c :: tl).length = tl.length + 3 := by simp
    rw [hlen] at h1 h2 h3
    have h1 := h1 (by simp)
    have hd : (tl.length + 3) / 3 = tl.length / 3 + 1 := by omega
    rw [hd] at h1 h2
    have hle : pos ≤ bound := by omega
    simp only [List.cons_append, decodeLoop, hle, if_true]
    rw [ih (by omega) (pos + 4) (by intro _; omega) (by omega)]
    simp only [decode3, unb64_b64Char _ (idx1 a), unb64_b64Char _ (idx2 a b), unb64_b64Char _ (idx3 b c),
      unb64_b64Char _ (idx4 c), dec_first, dec_second, dec_third]
    simp
  | case2 a b => intros; simp at h3
  | case3 a => intros; simp at h3
  | case4 =>
    intro pos _ h2
    simp at h2
    have hn : ¬ pos ≤ bound := by omega
    simp only [List.nil_append]
    unfold decodeLoop
    split <;> simp [hn]

end Licensecc

namespace Licensecc

theorem encodeChars_append (xs ys : Bytes) (h : xs.length % 3 = 0) :
    encodeChars (xs ++ ys) = encodeChars xs ++ encodeChars ys := by
  fun_induction encodeChars xs with
  | case1 a b c tl ih =>
    have : tl.length % 3 = 0 := by simp at h; omega
    simp [encodeChars, ih this]
  | case2 => simp at h
  | case3 => simp at h
  | case4 => simp

/-- Every non-empty list is full groups of three followed by 1, 2 or 3 elements. -/
theorem split_groups (bs : Bytes) (h : bs ≠ []) :
    ∃ full tl, bs = full ++ tl ∧ full.length % 3 = 0 ∧ 1 ≤ tl.length ∧ tl.length ≤ 3 := by
  have hl : 0 < bs.length := List.length_pos_iff.mpr h
  refine ⟨bs.take (((bs.length - 1) / 3) * 3), bs.drop (((bs.length - 1) / 3) * 3), by simp, ?_, ?_, ?_⟩
  · simp; omega
  · simp; omega
  · simp; omega

theorem getD_append_last (xs : Bytes) (a b c d : UInt8) :
    (xs ++ [a, b, c, d]).getD ((xs ++ [a, b, c, d]).length - 1) 0 = d
    ∧ (xs ++ [a, b, c, d]).getD ((xs ++ [a, b, c, d]).length - 2) 0 = c := by
  constructor
  · have : (xs ++ [a, b, c, d]).length - 1 = xs.length + 3 := by simp
    rw [this]; simp [List.getD]
  · have : (xs ++ [a, b, c, d]).length - 2 = xs.length + 2 := by simp
    rw [this]; simp [List.getD]

theorem list1 {α : Type} (l : List α) (h : l.length = 1) : ∃ a, l = [a] := by
  match l, h with | [a], _ => exact ⟨a, rfl⟩
theorem list2 {α : Type} (l : List α) (h : l.length = 2) : ∃ a b, l = [a, b] := by
  match l, h with | [a, b], _ => exact ⟨a, b, rfl⟩
theorem list3 {α : Type} (l : List α) (h : l.length = 3) : ∃ a b c, l = [a, b, c] := by
  match l, h with | [a, b, c], _ => exact ⟨a, b, c, rfl⟩

/-- Decoding the newline-free encoding of at least 3 bytes (fewer than 2^61 of them). -/
theorem unbase64_of_filter (s bs : Bytes) (h : 3 ≤ bs.length) (hbig : bs.length < 2 ^ 61)
    (hs : s.filter notNL = encodeChars bs) : unbase64 s = .ok bs := by
  have hne : bs ≠ [] := by intro h0; simp [h0] at h
  obtain ⟨full, tl, rfl, hf, h1, h3⟩ := split_groups bs hne
  have hfl : full.length = 3 * (full.length / 3) := by omega
  have hef : (encodeChars full).length = 4 * (full.length / 3) := by
    rw [encodeChars_length]; congr 1; omega
  have hfb : full.length < 2 ^ 61 := by simp at hbig; omega
  unfold unbase64
  have hs' : s.filter (fun b => !(b == 10)) = encodeChars full ++ encodeChars tl := by
    rw [← encodeChars_append _ _ hf]; exact hs
  simp only [hs']
  rcases (by omega : tl.length = 1 ∨ tl.length = 2 ∨ tl.length = 3) with h | h | h
  · obtain ⟨a, rfl⟩ := list1 _ h
    have hfpos : 0 < full.length / 3 := by simp at *; omega
    have hE : encodeChars [a] = [b64Char (a.toNat / 4), b64Char ((a.toNat % 4) * 16), 61, 61] := rfl
    rw [hE]
    obtain ⟨l1, l2⟩ := getD_append_last (encodeChars full) (b64Char (a.toNat / 4)) (b64Char ((a.toNat % 4) * 16)) 61 61
    rw [l1, l2]
    simp only [List.length_append, hef, List.length_cons, List.length_nil]
    rw [if_neg (by omega)]
    have hb : (4 * (full.length / 3) + (0 + 1 + 1 + 1 + 1) + 2 ^ 64 - 4 - 2) % 2 ^ 64 = 4 * (full.length / 3) - 2 := by omega
    simp only [beq_self_eq_true, if_true, Nat.reduceAdd] at hb ⊢
    rw [hb, if_neg (by omega)]
    rw [List.append_assoc, decodeLoop_full _ full _ hf 0 (by intro _; omega) (by omega)]
    simp only [List.cons_append, unb64_b64Char _ (idx1 a), unb64_b64Char _ (idx2' a), dec_first']
    simp
  · obtain ⟨a, b, rfl⟩ := list2 _ h
    have hfpos : 0 < full.length / 3 := by simp at *; omega
    have hE : encodeChars [a, b] = [b64Char (a.toNat / 4), b64Char ((a.toNat % 4) * 16 + b.toNat / 16),
        b64Char ((b.toNat % 16) * 4), 61] := rfl
    rw [hE]
    obtain ⟨l1, l2⟩ := getD_append_last (encodeChars full) (b64Char (a.toNat / 4))
      (b64Char ((a.toNat % 4) * 16 + b.toNat / 16)) (b64Char ((b.toNat % 16) * 4)) 61
    rw [l1, l2]
    simp only [List.length_append, hef, List.length_cons, List.length_nil]
    rw [if_neg (by omega)]
    have hc := b64Char_ne_eq _ (idx3' b)
    have hc' : (b64Char ((b.toNat % 16) * 4) == 61) = false := by simp [hc]
    have hb : (4 * (full.length / 3) + (0 + 1 + 1 + 1 + 1) + 2 ^ 64 - 4 - 1) % 2 ^ 64 = 4 * (full.length / 3) - 1 := by omega
    simp only [hc', beq_self_eq_true, if_true, Bool.false_eq_true, if_false, Nat.reduceAdd] at hb ⊢
    rw [hb, if_neg (by omega)]
    rw [List.append_assoc, decodeLoop_full _ full _ hf 0 (by intro _; omega) (by omega)]
    simp only [List.cons_append, unb64_b64Char _ (idx1 a), unb64_b64Char _ (idx2 a b), unb64_b64Char _ (idx3' b),
      dec_first, dec_second']
  · obtain ⟨a, b, c, rfl⟩ := list3 _ h
    have hE : encodeChars [a, b, c] = [b64Char (a.toNat / 4), b64Char ((a.toNat % 4) * 16 + b.toNat / 16),
        b64Char ((b.toNat % 16) * 4 + c.toNat / 64), b64Char (c.toNat % 64)] := rfl
    obtain ⟨l1, l2⟩ := getD_append_last (encodeChars full) (b64Char (a.toNat / 4))
      (b64Char ((a.toNat % 4) * 16 + b.toNat / 16)) (b64Char ((b.toNat % 16) * 4 + c.toNat / 64)) (b64Char (c.toNat % 64))
    rw [← hE] at l1 l2
    rw [l1, l2, ← encodeChars_append _ _ hf]
    have hL : (encodeChars (full ++ [a, b, c])).length = 4 * (full.length / 3 + 1) := by
      rw [encodeChars_length]; simp; omega
    rw [hL, if_neg (by omega)]
    have hc := b64Char_ne_eq _ (idx3 b c)
    have hc' : (b64Char ((b.toNat % 16) * 4 + c.toNat / 64) == 61) = false := by simp [hc]
    have hd := b64Char_ne_eq _ (idx4 c)
    have hd' : (b64Char (c.toNat % 64) == 61) = false := by simp [hd]
    have hb : (4 * (full.length / 3 + 1) + 2 ^ 64 - 4 - 0) % 2 ^ 64 = 4 * (full.length / 3) := by omega
    simp only [hc', hd', Bool.false_eq_true, if_false, Nat.add_zero] at hb ⊢
    rw [hb]
    have hlen : (full ++ [a, b, c]).length = full.length + 3 := by simp
    rw [decodeLoop_full _ (full ++ [a, b, c]) [0] (by rw [hlen]; omega) 0 (by rw [hlen]; intro _; omega)
      (by rw [hlen]; omega)]
    simp

/-- The loop of the decoder never throws. -/
theorem decodeLoop_no_throw (bound pos : Nat) (mem : Bytes) (e : Exn) : decodeLoop bound pos mem ≠ .throw e := by
  fun_induction decodeLoop bound pos mem <;> simp_all

/-- The decoder loop runs off the memory when the bound is beyond it. -/
theorem decodeLoop_ub (bound : Nat) (mem : Bytes) : ∀ pos, pos + mem.length ≤ bound →
    decodeLoop bound pos mem = .ub := by
  intro pos
  fun_induction decodeLoop bound pos mem with
  | case1 pos a b c d rest h out r hr ih =>
    intro hh; simp at hh; rw [ih (by omega)] at hr; simp at hr
  | case2 pos a b c d rest h e hr ih => exact absurd hr (decodeLoop_no_throw _ _ _ _)
  | case3 => intro _; rfl
  | case4 pos a b c d rest h => intro hh; simp at hh; omega
  | case5 => intro _; rfl
  | case6 pos mem hm h =>
    intro hh
    have : 4 > mem.length := by
      match mem, hm with
      | [], _ | [_], _ | [_, _], _ | [_, _, _], _ => simp
      | a :: b :: c :: d :: r, hm => exact absurd rfl (hm a b c d r)
    omega

/-- The decoder loop stays inside when the bound is inside; it leaves exactly the memory from the first
    multiple of four past the bound on. -/
theorem decodeLoop_ok (bound : Nat) (mem : Bytes) : ∀ pos, bound + 4 ≤ pos + mem.length → bound < 2 ^ 64 →
    pos ≤ bound + 4 → 
    ∃ out, decodeLoop bound pos mem = .ok (out, mem.drop (4 * ((bound + 4 - pos) / 4)))
      ∧ out.length = 3 * ((bound + 4 - pos) / 4) := by
  intro pos
  fun_induction decodeLoop bound pos mem with
  | case1 pos a b c d rest h out r hr ih =>
    intro h1 h2 h3
    simp at h1
    obtain ⟨o, ho, hl⟩ := ih (by omega) h2 (by omega)
    rw [hr] at ho; injection ho with ho; injection ho with ho1 ho2
    have hq : (bound + 4 - pos) / 4 = (bound + 4 - (pos + 4)) / 4 + 1 := by omega
    refine ⟨decode3 (unb64 a) (unb64 b) (unb64 c) (unb64 d) ++ out, ?_, ?_⟩
    · rw [ho2, hq, Nat.mul_add, show 4 * 1 = 4 from rfl]
      simp only [List.drop_succ_cons]
    · simp [decode3, ho1, hl]; omega
  | case2 pos a b c d rest h e hr ih => exact absurd hr (decodeLoop_no_throw _ _ _ _)
  | case3 pos a b c d rest h hr ih =>
    intro h1 h2 h3
    simp at h1
    obtain ⟨o, ho, hl⟩ := ih (by omega) h2 (by omega)
    rw [hr] at ho; simp at ho
  | case4 pos a b c d rest h => 
    intro h1 h2 h3
    have : (bound + 4 - pos)/4 = 0 := by omega
    exact ⟨[], by simp [this], by simp [this]⟩
  | case5 pos mem hm h =>
    intro h1 h2 h3
    have : 4 > mem.length := by
      match mem, hm with
      | [], _ | [_], _ | [_, _], _ | [_, _, _], _ => simp
      | a :: b :: c :: d :: r, hm => exact absurd rfl (hm a b c d r)
    omega
  | case6 pos mem hm h => 
    intro h1 h2 h3
    exact ⟨[], by have : (bound + 4 - pos)/4 = 0 := by omega
                  simp [this], by simp; omega⟩

end Licensecc
