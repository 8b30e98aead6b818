import Verif.Spec.Fmt
import Verif.Fmt.Digits

/-!
# The UTF-8 decoder cuts every byte string into its characters and stray bytes
-/

namespace Efp
namespace Fmt

open Spec.Fmt (utf8 firstChar pieces piecesN Bytes visit)

theorem byteOf (n : Nat) (h : n < 256) : (UInt8.ofNat n).toNat = n := by
  rw [UInt8.toNat_ofNat']; omega

/-- The encoding of a character, in arithmetic. -/
theorem utf8_eq (c : Char) : utf8 c =
    if c.toNat < 128 then [Char.ofNat c.toNat]
    else if c.toNat < 2048 then [Char.ofNat (192 + c.toNat / 64), Char.ofNat (128 + c.toNat % 64)]
    else if c.toNat < 65536 then
      [Char.ofNat (224 + c.toNat / 4096), Char.ofNat (128 + c.toNat / 64 % 64), Char.ofNat (128 + c.toNat % 64)]
    else [Char.ofNat (240 + c.toNat / 262144), Char.ofNat (128 + c.toNat / 4096 % 64),
      Char.ofNat (128 + c.toNat / 64 % 64), Char.ofNat (128 + c.toNat % 64)] := by
  have hc : c.toNat < 1114112 := by
    have := c.valid
    simp only [UInt32.isValidChar, Nat.isValidChar] at this
    have e : c.toNat = c.val.toNat := rfl
    omega
  have e : c.val.toNat = c.toNat := rfl
  unfold utf8 String.utf8EncodeChar
  simp only [e]
  by_cases h1 : c.toNat < 128
  · rw [if_pos (by omega), if_pos h1]; simp only [List.map_cons, List.map_nil]; rw [byteOf _ (by omega)]
  · rw [if_neg (by omega), if_neg h1]
    by_cases h2 : c.toNat < 2048
    · rw [if_pos (by omega), if_pos h2]; simp only [List.map_cons, List.map_nil]
      rw [byteOf _ (by omega), byteOf _ (by omega)]
      rw [show c.toNat / 64 % 32 + 192 = 192 + c.toNat / 64 by omega, Nat.add_comm (c.toNat % 64)]
    · rw [if_neg (by omega), if_neg h2]
      by_cases h3 : c.toNat < 65536
      · rw [if_pos (by omega), if_pos h3]; simp only [List.map_cons, List.map_nil]
        rw [byteOf _ (by omega), byteOf _ (by omega), byteOf _ (by omega)]
        rw [show c.toNat / 4096 % 16 + 224 = 224 + c.toNat / 4096 by omega, Nat.add_comm (c.toNat % 64),
          Nat.add_comm (c.toNat / 64 % 64)]
      · rw [if_neg (by omega), if_neg h3]; simp only [List.map_cons, List.map_nil]
        rw [byteOf _ (by omega), byteOf _ (by omega), byteOf _ (by omega), byteOf _ (by omega)]
        rw [show c.toNat / 262144 % 8 + 240 = 240 + c.toNat / 262144 by omega, Nat.add_comm (c.toNat % 64),
          Nat.add_comm (c.toNat / 64 % 64), Nat.add_comm (c.toNat / 4096 % 64)]

theorem toNat_lt (c : Char) : c.toNat < 1114112 := by
  have := c.valid
  simp only [UInt32.isValidChar, Nat.isValidChar] at this
  have e : c.toNat = c.val.toNat := rfl
  omega

theorem not_surrogate (c : Char) : c.toNat < 55296 ∨ 57343 < c.toNat := by
  have := c.valid
  simp only [UInt32.isValidChar, Nat.isValidChar] at this
  have e : c.toNat = c.val.toNat := rfl
  omega

theorem or_shift (a b i : Nat) (h : b < 2 ^ i) : a <<< i ||| b = a * 2 ^ i + b := by
  rw [← Nat.shiftLeft_add_eq_or_of_lt h, Nat.shiftLeft_eq]

theorem mask_c0 (b : Nat) (h : b < 256) : b &&& 0xc0 = b / 64 * 64 := by
  have := (show ∀ b : Fin 256, b.val &&& 0xc0 = b.val / 64 * 64 by decide +kernel) ⟨b, h⟩
  exact this

theorem xor_zero_iff (a b : Nat) : a ^^^ b = 0 ↔ a = b := by
  constructor
  · intro h
    apply Nat.eq_of_testBit_eq
    intro i
    have := congrArg (·.testBit i) h
    simpa [Nat.testBit_xor] using this
  · rintro rfl; exact Nat.xor_self a

theorem error_zero (e s : Nat) : (e ^^^ 0x2a) >>> s = 0 ↔ e / 2 ^ s = 42 / 2 ^ s := by
  rw [Nat.shiftRight_xor_distrib, xor_zero_iff, Nat.shiftRight_eq_div_pow, Nat.shiftRight_eq_div_pow]

/-- the error bits before the last step -/
def errBits (c mn s1 s2 s3 : Nat) : Nat :=
  (if c < mn then 64 else 0) + (if c / 2048 = 27 then 128 else 0) + (if c > 1114111 then 256 else 0)
    + s1 / 64 * 16 + s2 / 64 * 4 + s3 / 64

theorem utf8Decode_eq (b0 b1 b2 b3 : Char) (r : Str) (h1 : b1.toNat < 256) (h2 : b2.toNat < 256)
    (h3 : b3.toNat < 256) :
    let len := utf8Len.getD (b0.toNat >>> 3) 0
    let c := ((b0.toNat &&& utf8Masks.getD len 0) * 262144 + b1.toNat % 64 * 4096 + b2.toNat % 64 * 64
      + b3.toNat % 64) / 2 ^ utf8Shiftc.getD len 0
    utf8Decode (b0 :: b1 :: b2 :: b3 :: r) =
      .ok (c, (errBits c (utf8Mins.getD len 0) b1.toNat b2.toNat b3.toNat ^^^ 0x2a) >>> utf8Shifte.getD len 0,
        len + if len = 0 then 1 else 0) := by
  intro len c
  have e1 : ∀ x : Nat, x &&& 63 = x % 64 := fun x => Nat.and_two_pow_sub_one_eq_mod x 6
  have ec : ((b0.toNat &&& utf8Masks.getD len 0) <<< 18 ||| (b1.toNat &&& 0x3f) <<< 12
      ||| (b2.toNat &&& 0x3f) <<< 6 ||| (b3.toNat &&& 0x3f)) >>> utf8Shiftc.getD len 0 = c := by
    rw [Nat.shiftRight_eq_div_pow, e1, e1, e1, Nat.or_assoc, Nat.or_assoc,
      or_shift _ (b3.toNat % 64) 6 (by omega), or_shift _ _ 12 (by omega), or_shift _ _ 18 (by omega)]
    have : (b0.toNat &&& utf8Masks.getD len 0) * 2 ^ 18 + (b1.toNat % 64 * 2 ^ 12 + (b2.toNat % 64 * 2 ^ 6
        + b3.toNat % 64)) = (b0.toNat &&& utf8Masks.getD len 0) * 262144 + b1.toNat % 64 * 4096 + b2.toNat % 64 * 64
        + b3.toNat % 64 := by omega
    rw [this]
  have ee : (if c < utf8Mins.getD len 0 then 1 else 0) <<< 6
      ||| (if c >>> 11 = 0x1b then 1 else 0) <<< 7
      ||| (if c > 0x10ffff then 1 else 0) <<< 8
      ||| (b1.toNat &&& 0xc0) >>> 2
      ||| (b2.toNat &&& 0xc0) >>> 4
      ||| b3.toNat >>> 6 = errBits c (utf8Mins.getD len 0) b1.toNat b2.toNat b3.toNat := by
    rw [mask_c0 _ h1, mask_c0 _ h2]
    rw [show c >>> 11 = c / 2048 from Nat.shiftRight_eq_div_pow _ _]
    rw [show (b1.toNat / 64 * 64) >>> 2 = (b1.toNat / 64) <<< 4 by
        rw [Nat.shiftRight_eq_div_pow, Nat.shiftLeft_eq]; omega,
      show (b2.toNat / 64 * 64) >>> 4 = (b2.toNat / 64) <<< 2 by
        rw [Nat.shiftRight_eq_div_pow, Nat.shiftLeft_eq]; omega,
      show b3.toNat >>> 6 = b3.toNat / 64 from Nat.shiftRight_eq_div_pow _ _]
    have q1 : b1.toNat / 64 < 4 := by omega
    have q2 : b2.toNat / 64 < 4 := by omega
    have q3 : b3.toNat / 64 < 4 := by omega
    unfold errBits
    have rhs : ∀ x y z : Nat, x ≤ 1 → y ≤ 1 → z ≤ 1 → ∀ p q r : Nat, p < 4 → q < 4 → r < 4 →
        x <<< 6 ||| y <<< 7 ||| z <<< 8 ||| p <<< 4 ||| q <<< 2 ||| r
          = x * 64 + y * 128 + z * 256 + p * 16 + q * 4 + r := by
      intro x y z hx hy hz p q r hp hq hr
      have := (show ∀ x y z : Fin 2, ∀ p q r : Fin 4,
        x.val <<< 6 ||| y.val <<< 7 ||| z.val <<< 8 ||| p.val <<< 4 ||| q.val <<< 2 ||| r.val
          = x.val * 64 + y.val * 128 + z.val * 256 + p.val * 16 + q.val * 4 + r.val by decide +kernel)
        ⟨x, by omega⟩ ⟨y, by omega⟩ ⟨z, by omega⟩ ⟨p, hp⟩ ⟨q, hq⟩ ⟨r, hr⟩
      exact this
    rw [rhs _ _ _ (by split <;> omega) (by split <;> omega) (by split <;> omega) _ _ _ q1 q2 q3]
    have ite1 : ∀ (P : Prop) [Decidable P] (k : Nat), (if P then 1 else 0) * k = if P then k else 0 := by
      intro P _ k; split <;> simp
    rw [ite1, ite1, ite1]
  simp only [utf8Decode]
  rw [show utf8Len.getD (b0.toNat >>> 3) 0 = len from rfl, ec, ee]

theorem lenTable (b : Nat) (h : b < 256) : utf8Len.getD (b >>> 3) 0 =
    if b < 128 then 1 else if b < 192 then 0 else if b < 224 then 2 else if b < 240 then 3
    else if b < 248 then 4 else 0 := by
  have := (show ∀ b : Fin 256, utf8Len.getD (b.val >>> 3) 0 =
    if b.val < 128 then 1 else if b.val < 192 then 0 else if b.val < 224 then 2 else if b.val < 240 then 3
    else if b.val < 248 then 4 else 0 by decide +kernel) ⟨b, h⟩
  exact this

theorem toNat_ofNat (n : Nat) (h : n < 55296 ∨ (57343 < n ∧ n < 1114112)) : (Char.ofNat n).toNat = n := by
  have hv : n.isValidChar := by unfold Nat.isValidChar; omega
  unfold Char.ofNat
  rw [dif_pos hv]
  rfl

theorem char_ext {a b : Char} (h : a.toNat = b.toNat) : a = b := by
  rw [← Char.ofNat_toNat a, ← Char.ofNat_toNat b, h]

theorem eq_ofNat {a : Char} {n : Nat} (h : a.toNat = n) : a = Char.ofNat n := by
  rw [← h, Char.ofNat_toNat]

theorem ofNat_eq_iff {n : Nat} {b : Char} (h : n < 55296) : Char.ofNat n = b ↔ b.toNat = n := by
  constructor
  · rintro rfl; exact toNat_ofNat n (Or.inl h)
  · intro hb; exact (eq_ofNat hb).symm

/-- A text begins with the encoding of a character, in arithmetic. -/
theorem utf8_prefix_iff (ch b0 b1 b2 b3 : Char) (r : Str) : utf8 ch <+: b0 :: b1 :: b2 :: b3 :: r ↔
    (ch.toNat < 128 ∧ b0.toNat = ch.toNat) ∨
    (128 ≤ ch.toNat ∧ ch.toNat < 2048 ∧ b0.toNat = 192 + ch.toNat / 64 ∧ b1.toNat = 128 + ch.toNat % 64) ∨
    (2048 ≤ ch.toNat ∧ ch.toNat < 65536 ∧ b0.toNat = 224 + ch.toNat / 4096 ∧ b1.toNat = 128 + ch.toNat / 64 % 64 ∧
      b2.toNat = 128 + ch.toNat % 64) ∨
    (65536 ≤ ch.toNat ∧ b0.toNat = 240 + ch.toNat / 262144 ∧ b1.toNat = 128 + ch.toNat / 4096 % 64 ∧
      b2.toNat = 128 + ch.toNat / 64 % 64 ∧ b3.toNat = 128 + ch.toNat % 64) := by
  have hc := toNat_lt ch
  rw [utf8_eq]
  by_cases g1 : ch.toNat < 128
  · rw [if_pos g1]
    simp only [List.cons_prefix_cons, List.nil_prefix, and_true]
    rw [ofNat_eq_iff (by omega)]
    omega
  · rw [if_neg g1]
    by_cases g2 : ch.toNat < 2048
    · rw [if_pos g2]
      simp only [List.cons_prefix_cons, List.nil_prefix, and_true]
      rw [ofNat_eq_iff (by omega), ofNat_eq_iff (by omega)]
      omega
    · rw [if_neg g2]
      by_cases g3 : ch.toNat < 65536
      · rw [if_pos g3]
        simp only [List.cons_prefix_cons, List.nil_prefix, and_true]
        rw [ofNat_eq_iff (by omega), ofNat_eq_iff (by omega), ofNat_eq_iff (by omega)]
        omega
      · rw [if_neg g3]
        simp only [List.cons_prefix_cons, List.nil_prefix, and_true]
        rw [ofNat_eq_iff (by omega), ofNat_eq_iff (by omega), ofNat_eq_iff (by omega), ofNat_eq_iff (by omega)]
        omega

theorem utf8_length (ch : Char) : (utf8 ch).length =
    if ch.toNat < 128 then 1 else if ch.toNat < 2048 then 2 else if ch.toNat < 65536 then 3 else 4 := by
  rw [utf8_eq]
  repeat' split
  all_goals rfl

/-- the error bits of a sequence of one, two, three and four bytes vanish exactly when -/
theorem errBits_zero (c mn x1 x2 x3 : Nat) (h1 : x1 < 256) (h2 : x2 < 256) (h3 : x3 < 256) :
    (errBits c mn x1 x2 x3 / 2 ^ 6 = 42 / 2 ^ 6 ↔ mn ≤ c ∧ c / 2048 ≠ 27 ∧ c ≤ 1114111) ∧
    (errBits c mn x1 x2 x3 / 2 ^ 4 = 42 / 2 ^ 4 ↔ mn ≤ c ∧ c / 2048 ≠ 27 ∧ c ≤ 1114111 ∧ x1 / 64 = 2) ∧
    (errBits c mn x1 x2 x3 / 2 ^ 2 = 42 / 2 ^ 2 ↔
      mn ≤ c ∧ c / 2048 ≠ 27 ∧ c ≤ 1114111 ∧ x1 / 64 = 2 ∧ x2 / 64 = 2) ∧
    (errBits c mn x1 x2 x3 / 2 ^ 0 = 42 / 2 ^ 0 ↔
      mn ≤ c ∧ c / 2048 ≠ 27 ∧ c ≤ 1114111 ∧ x1 / 64 = 2 ∧ x2 / 64 = 2 ∧ x3 / 64 = 2) := by
  unfold errBits
  refine ⟨?_, ?_, ?_, ?_⟩ <;> (split <;> split <;> split <;> omega)

/-- The decoder recognises exactly the encodings of characters. -/
theorem utf8Decode_spec (b0 b1 b2 b3 : Char) (r : Str) (h0 : b0.toNat < 256) (h1 : b1.toNat < 256)
    (h2 : b2.toNat < 256) (h3 : b3.toNat < 256) :
    ∃ c e len, utf8Decode (b0 :: b1 :: b2 :: b3 :: r) = .ok (c, e, len) ∧
      ((e = 0 ∧ ∃ ch : Char, ch.toNat = c ∧ utf8 ch <+: b0 :: b1 :: b2 :: b3 :: r ∧ (utf8 ch).length = len) ∨
        (e ≠ 0 ∧ ∀ ch : Char, ¬ utf8 ch <+: b0 :: b1 :: b2 :: b3 :: r)) := by
  have hd := utf8Decode_eq b0 b1 b2 b3 r h1 h2 h3
  rw [lenTable _ h0] at hd
  refine ⟨_, _, _, hd, ?_⟩
  have hand : ∀ k, b0.toNat &&& (2 ^ k - 1) = b0.toNat % 2 ^ k := fun k => Nat.and_two_pow_sub_one_eq_mod _ k
  simp only [utf8_prefix_iff, utf8_length]
  rw [show (∀ P Q : Prop, ∀ e : Nat, (e = 0 ∧ P ∨ e ≠ 0 ∧ Q) ↔ ((e = 0 → P) ∧ (e ≠ 0 → Q))) from by
    intro P Q e
    by_cases he : e = 0 <;> simp [he]]
  rw [Ne, error_zero]
  clear hd
  have mk : ∀ n : Nat, n / 2048 ≠ 27 → n ≤ 1114111 → ∃ ch : Char, ch.toNat = n :=
    fun n p q => ⟨Char.ofNat n, toNat_ofNat n (by omega)⟩
  by_cases g1 : b0.toNat < 128
  · rw [if_pos g1]
    simp only [utf8Masks, utf8Mins, utf8Shiftc, utf8Shifte, List.getD_cons_succ, List.getD_cons_zero]
    rw [hand 7, (errBits_zero _ _ _ _ _ h1 h2 h3).1]
    constructor
    · rintro ⟨e1, e2, e3⟩
      obtain ⟨ch, hch⟩ := mk _ e2 e3
      refine ⟨ch, hch, ?_, ?_⟩
      · left; omega
      · rw [if_pos (by omega)]; rfl
    · intro he ch hp
      have := not_surrogate ch
      have := toNat_lt ch
      omega
  · rw [if_neg g1]
    by_cases g2 : b0.toNat < 192
    · rw [if_pos g2]
      simp only [utf8Masks, utf8Mins, utf8Shiftc, utf8Shifte, List.getD_cons_succ, List.getD_cons_zero]
      rw [Nat.and_zero, (errBits_zero _ _ _ _ _ h1 h2 h3).2.2.2]
      constructor
      · rintro ⟨e1, -⟩; omega
      · intro he ch hp
        have := toNat_lt ch
        omega
    · rw [if_neg g2]
      by_cases g3 : b0.toNat < 224
      · rw [if_pos g3]
        simp only [utf8Masks, utf8Mins, utf8Shiftc, utf8Shifte, List.getD_cons_succ, List.getD_cons_zero]
        rw [hand 5, (errBits_zero _ _ _ _ _ h1 h2 h3).2.1]
        constructor
        · rintro ⟨e1, e2, e3, e4⟩
          obtain ⟨ch, hch⟩ := mk _ e2 e3
          refine ⟨ch, hch, ?_, ?_⟩
          · right; left; omega
          · rw [if_neg (by omega), if_pos (by omega)]; rfl
        · intro he ch hp
          have := not_surrogate ch
          have := toNat_lt ch
          omega
      · rw [if_neg g3]
        by_cases g4 : b0.toNat < 240
        · rw [if_pos g4]
          simp only [utf8Masks, utf8Mins, utf8Shiftc, utf8Shifte, List.getD_cons_succ, List.getD_cons_zero]
          rw [hand 4, (errBits_zero _ _ _ _ _ h1 h2 h3).2.2.1]
          constructor
          · rintro ⟨e1, e2, e3, e4, e5⟩
            obtain ⟨ch, hch⟩ := mk _ e2 e3
            refine ⟨ch, hch, ?_, ?_⟩
            · right; right; left; omega
            · rw [if_neg (by omega), if_neg (by omega), if_pos (by omega)]; rfl
          · intro he ch hp
            have := not_surrogate ch
            have := toNat_lt ch
            omega
        · rw [if_neg g4]
          by_cases g5 : b0.toNat < 248
          · rw [if_pos g5]
            simp only [utf8Masks, utf8Mins, utf8Shiftc, utf8Shifte, List.getD_cons_succ, List.getD_cons_zero]
            rw [hand 3, (errBits_zero _ _ _ _ _ h1 h2 h3).2.2.2]
            constructor
            · rintro ⟨e1, e2, e3, e4, e5, e6⟩
              obtain ⟨ch, hch⟩ := mk _ e2 e3
              refine ⟨ch, hch, ?_, ?_⟩
              · right; right; right; omega
              · rw [if_neg (by omega), if_neg (by omega), if_neg (by omega)]; rfl
            · intro he ch hp
              have := not_surrogate ch
              have := toNat_lt ch
              omega
          · rw [if_neg g5]
            simp only [utf8Masks, utf8Mins, utf8Shiftc, utf8Shifte, List.getD_cons_succ, List.getD_cons_zero]
            rw [Nat.and_zero, (errBits_zero _ _ _ _ _ h1 h2 h3).2.2.2]
            constructor
            · rintro ⟨e1, -⟩; omega
            · intro he ch hp
              have := toNat_lt ch
              omega

theorem enc_of_utf8 (c : Char) : (utf8 c).map (fun b => b.toNat.toUInt8) = String.utf8EncodeChar c := by
  unfold utf8
  rw [List.map_map]
  conv => rhs; rw [← List.map_id (String.utf8EncodeChar c)]
  apply List.map_congr_left
  intro b _
  have := b.toNat_lt
  simp only [Function.comp, id]
  rw [toNat_ofNat _ (by omega)]
  exact UInt8.ofNat_toNat

theorem bytes_back (s : Str) (h : Bytes s) :
    (s.map fun c => c.toNat.toUInt8).map (fun b => Char.ofNat b.toNat) = s := by
  rw [List.map_map]
  conv => rhs; rw [← List.map_id s]
  apply List.map_congr_left
  intro c hc
  have := h c hc
  simp only [Function.comp, id]
  have e : (c.toNat.toUInt8).toNat = c.toNat := byteOf _ this
  rw [e, Char.ofNat_toNat]

/-- `firstChar` finds the character whose encoding the text begins with. -/
theorem firstChar_iff (s : Str) (h : Bytes s) (c : Char) : firstChar s = some c ↔ utf8 c <+: s := by
  unfold firstChar
  constructor
  · intro hc
    have h1 := String.toByteArray_utf8EncodeChar_of_utf8DecodeChar?_eq_some hc
    have h2 : String.utf8EncodeChar c = (s.map fun c => c.toNat.toUInt8).take c.utf8Size := by
      have := congrArg (fun b => b.data.toList) h1
      simpa [ByteArray.data_extract, List.data_toByteArray] using this
    have h3 : utf8 c = s.take c.utf8Size := by
      unfold utf8
      rw [h2, List.map_take, bytes_back s h]
    rw [h3]
    exact List.take_prefix _ _
  · rintro ⟨r, rfl⟩
    rw [List.map_append, enc_of_utf8, List.toByteArray_append]
    exact ByteArray.utf8DecodeChar?_utf8EncodeChar_append

theorem utf8_bytes (c : Char) : Bytes (utf8 c) := by
  intro x hx
  unfold utf8 at hx
  obtain ⟨b, -, rfl⟩ := List.mem_map.mp hx
  have := b.toNat_lt
  rw [toNat_ofNat _ (by omega)]
  omega

theorem utf8_length_pos (c : Char) : 0 < (utf8 c).length := by
  rw [utf8_length]; repeat' split
  all_goals omega

theorem utf8_high (c : Char) (h : 1 < (utf8 c).length) : ∀ b ∈ utf8 c, 128 ≤ b.toNat := by
  have hc := toNat_lt c
  rw [utf8_length] at h
  have h1 : ¬ c.toNat < 128 := by intro h1; rw [if_pos h1] at h; omega
  rw [utf8_eq, if_neg h1]
  repeat' split
  all_goals
    intro b hb
    simp only [List.mem_cons, List.not_mem_nil, or_false] at hb
    rcases hb with rfl | rfl | rfl | rfl <;> rw [toNat_ofNat _ (by omega)] <;> omega

/-- Zero bytes after the text do not complete a character. -/
theorem prefix_zeros (c : Char) (p : Str) (hp : p ≠ []) (k : Nat)
    (h : utf8 c <+: p ++ List.replicate k (Char.ofNat 0)) : utf8 c <+: p := by
  by_cases hl : (utf8 c).length ≤ p.length
  · exact List.prefix_of_prefix_length_le h (List.prefix_append _ _) hl
  · exfalso
    have hpl : 0 < p.length := List.length_pos_iff.mpr hp
    obtain ⟨t, ht⟩ := List.prefix_of_prefix_length_le (List.prefix_append p _) h (by omega)
    rw [← ht] at h
    have h2 : t <+: List.replicate k (Char.ofNat 0) := (List.prefix_append_right_inj p).mp h
    cases t with
    | nil => simp at ht; rw [ht] at hl; omega
    | cons a t =>
      have hm : a ∈ List.replicate k (Char.ofNat 0) := h2.subset (List.mem_cons_self)
      have ha := List.eq_of_mem_replicate hm
      have := utf8_high c (by omega) a (by rw [← ht]; simp)
      rw [ha, toNat_ofNat _ (by omega)] at this
      omega

theorem firstChar_none_iff (s : Str) (h : Bytes s) : firstChar s = none ↔ ∀ c, ¬ utf8 c <+: s := by
  constructor
  · intro hn c hc
    rw [(firstChar_iff s h c).mpr hc] at hn
    exact absurd hn (by simp)
  · intro ha
    cases hf : firstChar s with
    | none => rfl
    | some c => exact absurd ((firstChar_iff s h c).mp hf) (ha c)

/-- the first piece of a non-empty text -/
def firstPiece (b : Char) (r : Str) : Option Char × Str :=
  match firstChar (b :: r) with
  | some c => (some c, utf8 c)
  | none => (none, [b])

theorem firstPiece_prefix (b : Char) (r : Str) (h : Bytes (b :: r)) : (firstPiece b r).2 <+: b :: r := by
  unfold firstPiece
  cases hf : firstChar (b :: r) with
  | none => simp
  | some c => exact (firstChar_iff _ h c).mp hf

theorem firstPiece_pos (b : Char) (r : Str) : 0 < (firstPiece b r).2.length := by
  unfold firstPiece
  cases firstChar (b :: r) with
  | none => simp
  | some c => exact utf8_length_pos c

theorem piecesN_eq : ∀ (n : Nat) (s : Str), s.length ≤ n → piecesN n s = piecesN s.length s
  | n, [], _ => by cases n <;> rfl
  | 0, _ :: _, h => by simp at h
  | n + 1, b :: r, h => by
    have hl : r.length ≤ n := by simpa using h
    have hsucc : (b :: r).length = r.length + 1 := rfl
    rw [hsucc]
    simp only [piecesN]
    cases hf : firstChar (b :: r) with
    | none =>
      simp only []
      rw [piecesN_eq n r hl]
    | some c =>
      simp only []
      have hp := utf8_length_pos c
      have hd : ((b :: r).drop (utf8 c).length).length ≤ r.length := by simp; omega
      rw [piecesN_eq n _ (by omega), piecesN_eq r.length _ hd]

theorem pieces_nil : pieces [] = [] := rfl

theorem pieces_cons (b : Char) (r : Str) : pieces (b :: r) =
    firstPiece b r :: pieces ((b :: r).drop (firstPiece b r).2.length) := by
  unfold pieces firstPiece
  have hsucc : (b :: r).length = r.length + 1 := rfl
  rw [hsucc]
  simp only [piecesN]
  cases hf : firstChar (b :: r) with
  | none => rfl
  | some c =>
    simp only []
    have hp := utf8_length_pos c
    have hd : ((b :: r).drop (utf8 c).length).length ≤ r.length := by simp; omega
    rw [piecesN_eq r.length _ hd]

/-- The pieces make up the text. -/
theorem pieces_flatten (s : Str) (h : Bytes s) : ((pieces s).map (·.2)).flatten = s := by
  generalize hn : s.length = n
  induction n using Nat.strongRecOn generalizing s with
  | ind n ih =>
    cases s with
    | nil => rfl
    | cons b r =>
      rw [pieces_cons, List.map_cons, List.flatten_cons]
      have hp := firstPiece_prefix b r h
      have hpos := firstPiece_pos b r
      rw [ih _ (by rw [← hn, List.length_drop, List.length_cons]; omega) _
        (fun c hc => h c (List.mem_of_mem_drop hc)) rfl]
      obtain ⟨t, ht⟩ := hp
      conv => lhs; rw [← ht, List.drop_left]
      exact ht

variable {σ : Type}

theorem cpDecode_eq (f : CpFn σ) (b : Char) (r : Str) (k : Nat) (h : Bytes (b :: r))
    (hk : 4 ≤ (b :: r).length + k) (off : Nat) (s : σ) :
    cpDecode f (b :: r ++ List.replicate k (Char.ofNat 0)) (b :: r) off s =
      .ok (if (f (match (firstPiece b r).1 with | some c => c.toNat | none => invalidCodePoint) off
          (firstPiece b r).2 s).1 then some (firstPiece b r).2.length else none,
        (f (match (firstPiece b r).1 with | some c => c.toNat | none => invalidCodePoint) off (firstPiece b r).2 s).2) := by
  have hB : Bytes (b :: r ++ List.replicate k (Char.ofNat 0)) := by
    intro c hc
    rcases List.mem_append.mp hc with hc | hc
    · exact h c hc
    · rw [List.eq_of_mem_replicate hc]; decide
  have hlen : 4 ≤ (b :: r ++ List.replicate k (Char.ofNat 0)).length := by
    rw [List.length_append, List.length_replicate]; exact hk
  unfold cpDecode
  generalize hbuf : b :: r ++ List.replicate k (Char.ofNat 0) = buf at *
  match buf, hlen with
  | b0 :: b1 :: b2 :: b3 :: t, _ =>
    obtain ⟨c, e, len, hd, hcase⟩ := utf8Decode_spec b0 b1 b2 b3 t (hB _ (by simp)) (hB _ (by simp)) (hB _ (by simp))
      (hB _ (by simp))
    rw [hd, Res.bind_ok]
    rcases hcase with ⟨he, ch, hch, hpre, hl⟩ | ⟨he, hno⟩
    · rw [← hbuf] at hpre
      have hpre' := prefix_zeros ch (b :: r) (by simp) k hpre
      have hf := (firstChar_iff _ h ch).mpr hpre'
      have hfp : firstPiece b r = (some ch, utf8 ch) := by unfold firstPiece; rw [hf]
      have htake : (b :: r).take len = utf8 ch := by rw [← hl]; exact (List.prefix_iff_eq_take.mp hpre').symm
      simp only [he, ne_eq, not_true, if_false, hfp, htake, hch, hl]
    · have hf : firstChar (b :: r) = none := by
        rw [firstChar_none_iff _ h]
        intro c hc
        apply hno c
        rw [← hbuf]
        exact hc.trans (List.prefix_append _ _)
      have hfp : firstPiece b r = (none, [b]) := by unfold firstPiece; rw [hf]
      simp only [ne_eq, he, not_false_iff, if_pos, hfp, List.take_succ_cons, List.take_zero, List.length_cons,
        List.length_nil]

theorem cpTail_eq (f : CpFn σ) (k : Nat) (hk : 3 ≤ k) : ∀ (fuel : Nat) (p : Str), p ≠ [] → p.length ≤ fuel → Bytes p →
    ∀ (off : Nat) (s : σ), cpTail f fuel (p ++ List.replicate k (Char.ofNat 0)) p off p.length s
      = .ok (visit invalidCodePoint f off (pieces p) s)
  | 0, p, hp, hl, _, _, _ => absurd (List.length_eq_zero_iff.mp (Nat.le_zero.mp hl)) hp
  | fuel + 1, b :: r, _, hl, hB, off, s => by
    have hpos := firstPiece_pos b r
    have hpre := (firstPiece_prefix b r hB).length_le
    unfold cpTail
    rw [cpDecode_eq f b r k hB (by rw [List.length_cons]; omega), Res.bind_ok, pieces_cons]
    simp only [visit]
    generalize hfp : firstPiece b r = fp at *
    generalize (f (match fp.1 with | some c => c.toNat | none => invalidCodePoint) off fp.2 s) = x
    obtain ⟨go, s'⟩ := x
    cases go with
    | false => rfl
    | true =>
      simp only [if_true]
      by_cases hlt : fp.2.length < (b :: r).length
      · rw [if_pos hlt]
        have hd : (b :: r ++ List.replicate k (Char.ofNat 0)).drop fp.2.length
            = (b :: r).drop fp.2.length ++ List.replicate k (Char.ofNat 0) :=
          List.drop_append_of_le_length hpre
        rw [hd, show (b :: r).length - fp.2.length = ((b :: r).drop fp.2.length).length by rw [List.length_drop]]
        have hdl : ((b :: r).drop fp.2.length).length = (b :: r).length - fp.2.length := List.length_drop
        refine cpTail_eq f k hk fuel _ ?_ (by omega) (fun c hc => hB c (List.mem_of_mem_drop hc)) _ _
        intro h0
        rw [h0] at hdl
        simp only [List.length_nil] at hdl
        omega
      · rw [if_neg hlt]
        rw [List.drop_of_length_le (by omega), pieces_nil]
        rfl

theorem cpMain_eq (f : CpFn σ) : ∀ (fuel : Nat) (p : Str), p.length < fuel → Bytes p →
    ∀ (off : Nat) (s : σ), cpMain f fuel p off s = .ok (visit invalidCodePoint f off (pieces p) s)
  | 0, _, hl, _, _, _ => absurd hl (Nat.not_lt_zero _)
  | fuel + 1, p, hl, hB, off, s => by
    unfold cpMain
    by_cases h4 : 4 ≤ p.length
    · rw [if_pos h4]
      cases p with
      | nil => simp at h4
      | cons b r =>
        have hpos := firstPiece_pos b r
        have hpre := (firstPiece_prefix b r hB).length_le
        have hdec := cpDecode_eq f b r 0 hB h4 off s
        rw [List.replicate_zero, List.append_nil] at hdec
        rw [hdec, Res.bind_ok, pieces_cons]
        simp only [visit]
        generalize hfp : firstPiece b r = fp at *
        generalize (f (match fp.1 with | some c => c.toNat | none => invalidCodePoint) off fp.2 s) = x
        obtain ⟨go, s'⟩ := x
        cases go with
        | false => rfl
        | true =>
          simp only [if_true]
          exact cpMain_eq f fuel _ (by rw [List.length_drop]; omega) (fun c hc => hB c (List.mem_of_mem_drop hc)) _ _
    · rw [if_neg h4]
      by_cases h0 : p.length ≠ 0
      · rw [if_pos h0]
        exact cpTail_eq f _ (by omega) 4 p (fun h => h0 (by rw [h]; rfl)) (by omega) hB off s
      · rw [if_neg h0]
        have : p = [] := List.length_eq_zero_iff.mp (by omega)
        rw [this]
        rfl

/-- The loop of the library visits the pieces in order. -/
theorem forEachCodepoint_eq (f : CpFn σ) (s : Str) (h : Bytes s) (st : σ) :
    forEachCodepoint f s st = .ok (visit invalidCodePoint f 0 (pieces s) st) :=
  cpMain_eq f _ s (Nat.lt_succ_self _) h 0 st

end Fmt
end Efp
