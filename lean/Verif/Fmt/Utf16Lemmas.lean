import Verif.Fmt.Utf16
import Verif.Fmt.Corollaries
import Verif.Spec.Utf16

/-!
# Lemmas on the converters between UTF-8, UTF-16 and UTF-32
-/

namespace Efp
namespace Fmt

open Spec.Fmt (utf8 Bytes pieces visit encode units16 utf16 utf32 Reads16 replacement)

/-! ### one code point -/

theorem or_high (a x i : Nat) (h : x < 2 ^ i) : a * 2 ^ i ||| x = a * 2 ^ i + x := by
  rw [← or_shift a x i h, Nat.shiftLeft_eq]

theorem or_c0 (x : Nat) (h : x < 64) : 0xc0 ||| x = 192 + x := or_high 3 x 6 h
theorem or_80 (x : Nat) (h : x < 64) : 0x80 ||| x = 128 + x := or_high 2 x 6 h
theorem or_e0 (x : Nat) (h : x < 16) : 0xe0 ||| x = 224 + x := or_high 14 x 4 h
theorem or_f0 (x : Nat) (h : x < 16) : 0xf0 ||| x = 240 + x := or_high 15 x 4 h
theorem and_3f (x : Nat) : x &&& 0x3f = x % 64 := Nat.and_two_pow_sub_one_eq_mod x 6
theorem and_fff (x : Nat) : x &&& 0xfff = x % 4096 := Nat.and_two_pow_sub_one_eq_mod x 12
theorem and_3ffff (x : Nat) : x &&& 0x3ffff = x % 262144 := Nat.and_two_pow_sub_one_eq_mod x 18
theorem and_3ff (x : Nat) : x &&& 0x3ff = x % 1024 := Nat.and_two_pow_sub_one_eq_mod x 10

/-- The encoder of the library is UTF-8. -/
theorem encodeUtf8_char (c : Char) : encodeUtf8 c.toNat = some (utf8 c) := by
  have h1 := toNat_lt c
  have h2 := not_surrogate c
  rw [utf8_eq]
  unfold encodeUtf8
  simp only [and_3f, and_fff, and_3ffff, Nat.shiftRight_eq_div_pow]
  by_cases a : c.toNat < 128
  · rw [if_pos a, if_pos a]
  · rw [if_neg a, if_neg a]
    by_cases b : c.toNat < 2048
    · rw [if_pos b, if_pos b, or_c0 _ (by omega), or_80 _ (by omega)]
    · rw [if_neg b, if_neg b]
      by_cases d : c.toNat < 65536
      · rw [if_pos (by omega), if_pos d, or_e0 _ (by omega), or_80 _ (by omega), or_80 _ (by omega)]
        congr 4 <;> omega
      · rw [if_neg (by omega), if_neg d, if_pos (by omega), or_f0 _ (by omega), or_80 _ (by omega), or_80 _ (by omega),
          or_80 _ (by omega), show c.toNat % 262144 / 2 ^ 12 = c.toNat / 4096 % 64 by omega,
          show c.toNat % 4096 / 2 ^ 6 = c.toNat / 64 % 64 by omega]

/-- It refuses everything that is no character. -/
theorem encodeUtf8_none (n : Nat) (h : ∀ c : Char, c.toNat ≠ n) : encodeUtf8 n = none := by
  have hn : ¬ (n < 55296 ∨ (57343 < n ∧ n < 1114112)) := fun hv => h (Char.ofNat n) (toNat_ofNat n hv)
  unfold encodeUtf8
  rw [if_neg (by omega), if_neg (by omega), if_neg (by omega), if_neg (by omega)]

/-! ### UTF-32 -/

theorem toUtf8of32_utf32 : ∀ cs : List Char, toUtf8of32 (utf32 cs) = some (encode cs)
  | [] => rfl
  | c :: cs => by
    have e : utf32 (c :: cs) = c.toNat :: utf32 cs := rfl
    rw [e]
    unfold toUtf8of32
    rw [encodeUtf8_char, toUtf8of32_utf32 cs]
    rfl

theorem toUtf8of32_iff : ∀ (us : List Nat) (t : Str),
    toUtf8of32 us = some t ↔ ∃ cs, us = utf32 cs ∧ t = encode cs := by
  intro us t
  constructor
  · induction us generalizing t with
    | nil => intro h; exact ⟨[], rfl, by simp only [toUtf8of32, Option.some.injEq] at h; exact h.symm⟩
    | cons u us ih =>
      intro h
      by_cases hc : ∃ c : Char, c.toNat = u
      · obtain ⟨c, rfl⟩ := hc
        unfold toUtf8of32 at h
        rw [encodeUtf8_char] at h
        cases hr : toUtf8of32 us with
        | none => rw [hr] at h; cases h
        | some t' =>
          rw [hr] at h
          obtain ⟨cs, e1, e2⟩ := ih t' hr
          cases h
          exact ⟨c :: cs, by rw [e1]; rfl, by rw [e2]; rfl⟩
      · unfold toUtf8of32 at h
        rw [encodeUtf8_none u (fun c e => hc ⟨c, e⟩)] at h
        cases h
  · rintro ⟨cs, rfl, rfl⟩
    exact toUtf8of32_utf32 cs

/-! ### UTF-8 to UTF-16 -/

/-- the callback of `utf8_to_utf16` -/
def toUtf16Fn : CpFn (Option (List Nat)) := fun cp _ _ (buf : Option (List Nat)) =>
  if cp = invalidCodePoint then (false, none)
  else if cp ≤ 0xffff then (true, buf.map (· ++ [cp]))
  else (true, buf.map (· ++ [0xd800 + (cp - 0x10000) >>> 10, 0xdc00 + ((cp - 0x10000) &&& 0x3ff)]))

theorem toUtf16Fn_char (c : Char) (off : Nat) (t : Str) (b : Option (List Nat)) :
    toUtf16Fn c.toNat off t b = (true, b.map (· ++ units16 c)) := by
  have h1 := toNat_lt c
  unfold toUtf16Fn units16
  rw [if_neg (by unfold invalidCodePoint; omega)]
  by_cases h : c.toNat ≤ 0xffff
  · rw [if_pos h, if_pos (by omega)]
  · rw [if_neg h, if_neg (by omega), and_3ff, Nat.shiftRight_eq_div_pow]

theorem visit_utf16 : ∀ (ps : List (Option Char × Str)) (off : Nat) (b : List Nat),
    visit invalidCodePoint toUtf16Fn off ps (some b) =
      if (∀ p ∈ ps, p.1.isSome = true) then some (b ++ ps.flatMap fun p => match p.1 with | some c => units16 c | none => [])
      else none
  | [], off, b => by simp [visit]
  | (none, t) :: ps, off, b => by
    rw [if_neg (by simp)]
    simp [visit, toUtf16Fn]
  | (some c, t) :: ps, off, b => by
    unfold visit
    simp only [toUtf16Fn_char, Option.map_some, if_true]
    rw [visit_utf16 ps]
    by_cases h : ∀ p ∈ ps, p.1.isSome = true
    · rw [if_pos h, if_pos (by simpa using h)]
      simp
    · rw [if_neg h, if_neg (by simpa using h)]

theorem pieces_all_char : ∀ (n : Nat) (s : Str), s.length ≤ n → Bytes s → (∀ p ∈ pieces s, p.1.isSome = true) →
    ∃ cs, s = encode cs
  | 0, s, h, _, _ => ⟨[], List.length_eq_zero_iff.mp (by omega)⟩
  | n + 1, [], _, _, _ => ⟨[], rfl⟩
  | n + 1, b :: r, h, hB, ha => by
    rw [pieces_cons] at ha
    have h1 := firstPiece_prefix b r hB
    have h2 := firstPiece_pos b r
    have h3 := ha _ (List.mem_cons_self)
    obtain ⟨u, hu⟩ := h1
    cases hf : Spec.Fmt.firstChar (b :: r) with
    | none =>
      have : firstPiece b r = (none, [b]) := by unfold firstPiece; rw [hf]
      rw [this] at h3
      cases h3
    | some c =>
      have hp : firstPiece b r = (some c, utf8 c) := by unfold firstPiece; rw [hf]
      rw [hp] at hu h2 ha
      have hd : (b :: r).drop (utf8 c).length = u := by rw [← hu, List.drop_left]
      rw [hd] at ha
      obtain ⟨cs, e⟩ := pieces_all_char n u
        (by have := congrArg List.length hu; simp only [List.length_append, List.length_cons] at this h2 h; omega)
        (fun c hc => hB c (by rw [← hu]; exact List.mem_append_right _ hc))
        (fun p hp => ha p (List.mem_cons_of_mem _ hp))
      exact ⟨c :: cs, by rw [← hu, e]; rfl⟩

theorem utf8ToUtf16_encode (cs : List Char) : utf8ToUtf16 (encode cs) = .ok (utf16 cs) := by
  have e := forEachCodepoint_eq toUtf16Fn (encode cs) (encode_bytes cs) (some [])
  change (forEachCodepoint toUtf16Fn (encode cs) (some []) >>= fun r =>
    match r with | some b => Res.ok b | none => .err "invalid utf8") = _
  rw [e, Res.bind_ok, visit_utf16, pieces_encode,
    if_pos (by simp)]
  simp [utf16, List.flatMap_map]

theorem utf8ToUtf16_other (s : Str) (hB : Bytes s) (h : ∀ cs, s ≠ encode cs) : utf8ToUtf16 s = .err "invalid utf8" := by
  have e := forEachCodepoint_eq toUtf16Fn s hB (some [])
  change (forEachCodepoint toUtf16Fn s (some []) >>= fun r =>
    match r with | some b => Res.ok b | none => .err "invalid utf8") = _
  rw [e, Res.bind_ok, visit_utf16, if_neg]
  intro ha
  obtain ⟨cs, hcs⟩ := pieces_all_char _ s (Nat.le_refl _) hB ha
  exact h cs hcs

/-! ### UTF-16 to UTF-8 -/

theorem and_fc00 (c : Nat) (h : c < 65536) : c &&& 0xfc00 = c / 1024 * 1024 := by
  have : c &&& 0xfc00 = ((c >>> 10) &&& 63) <<< 10 := by
    apply Nat.eq_of_testBit_eq
    intro i
    rw [Nat.testBit_and, Nat.testBit_shiftLeft, Nat.testBit_and, Nat.testBit_shiftRight]
    by_cases hi : i < 16
    · have : ∀ i < 16, Nat.testBit 0xfc00 i = (decide (i ≥ 10) && Nat.testBit 63 (i - 10)) := by decide
      rw [this i hi]
      by_cases h10 : i ≥ 10
      · simp [h10]
      · simp [h10]
    · have : c.testBit i = false :=
        Nat.testBit_lt_two_pow (Nat.lt_of_lt_of_le (show c < 2 ^ 16 from h) (Nat.pow_le_pow_right (by omega) (by omega)))
      rw [this]
      simp only [Bool.false_and]
      rw [show 10 + (i - 10) = i by omega, this]
      simp
  rw [this, show (63 : Nat) = 2 ^ 6 - 1 from rfl, Nat.and_two_pow_sub_one_eq_mod, Nat.shiftRight_eq_div_pow,
    Nat.shiftLeft_eq]
  omega

theorem mask_d8 (c : Nat) (h : c < 65536) : c &&& 0xfc00 = 0xd800 ↔ 0xd800 ≤ c ∧ c < 0xdc00 := by
  rw [and_fc00 c h]; omega

theorem mask_dc (c : Nat) (h : c < 65536) : c &&& 0xfc00 = 0xdc00 ↔ 0xdc00 ≤ c ∧ c < 0xe000 := by
  rw [and_fc00 c h]; omega

/-- what `to_utf8` of 2-byte units makes of a piece: nothing of a character beyond 2¹⁶ -/
def kept16 : Option Char → Option Char
  | none => some replacement
  | some c => if c.toNat < 0x10000 then some c else none

theorem units16_lt (c : Char) : ∀ u ∈ units16 c, u < 65536 := by
  have h := toNat_lt c
  unfold units16
  split <;> simp <;> omega

theorem encode_cons (c : Char) (cs : List Char) : encode (c :: cs) = utf8 c ++ encode cs := rfl

theorem utf8_replacement : utf8 replacement = [Char.ofNat 0xef, Char.ofNat 0xbf, Char.ofNat 0xbd] := by decide

/-- two surrogates that are a pair are a character -/
theorem pair_char (u d : Nat) (hu : 0xd800 ≤ u ∧ u < 0xdc00) (hd : 0xdc00 ≤ d ∧ d < 0xe000) : ∃ c, units16 c = [u, d] := by
  obtain ⟨c, hc⟩ : ∃ c : Char, c.toNat = 0x10000 + (u - 0xd800) * 0x400 + (d - 0xdc00) := ⟨_, toNat_ofNat _ (by omega)⟩
  refine ⟨c, ?_⟩
  unfold units16
  rw [hc, if_neg (by omega)]
  have e1 : 0xd800 + (0x10000 + (u - 0xd800) * 0x400 + (d - 0xdc00) - 0x10000) / 0x400 = u := by omega
  have e2 : 0xdc00 + (0x10000 + (u - 0xd800) * 0x400 + (d - 0xdc00) - 0x10000) % 0x400 = d := by omega
  rw [e1, e2]

theorem reads16_nil {us : List Nat} {ps : List (Option Char)} (h : Reads16 us ps) (e : us = []) : ps = [] := by
  cases h with
  | nil => rfl
  | char c us ps _ =>
    have hl : 0 < (units16 c).length := by unfold units16; split <;> simp
    rw [(List.append_eq_nil_iff.mp e).1] at hl
    exact absurd hl (Nat.lt_irrefl 0)
  | stray => cases e

theorem toUtf8of16_reads (r : Bool) {us : List Nat} {ps : List (Option Char)} (h : Reads16 us ps)
    (hlt : ∀ u ∈ us, u < 65536) : toUtf8of16 r us =
      if r = true ∨ (∀ p ∈ ps, p.isSome = true) then some (encode (ps.filterMap kept16)) else none := by
  induction h with
  | nil => rw [if_pos (by simp)]; rfl
  | char c us ps _ ih =>
    have ih := ih (fun u hu => hlt u (List.mem_append_right _ hu))
    have hns := not_surrogate c
    have hmax := toNat_lt c
    by_cases hb : c.toNat < 0x10000
    · have e : units16 c = [c.toNat] := by unfold units16; rw [if_pos hb]
      have ek : (some c :: ps).filterMap kept16 = c :: ps.filterMap kept16 := by simp [kept16, hb]
      rw [e, List.singleton_append, ek]
      unfold toUtf8of16
      rw [if_neg (by omega), encodeUtf8_char, ih]
      by_cases hc : r = true ∨ (∀ p ∈ ps, p.isSome = true)
      · rw [if_pos hc, if_pos (by simpa using hc)]; rfl
      · rw [if_neg hc, if_neg (by simpa using hc)]; rfl
    · have e : units16 c = [0xd800 + (c.toNat - 0x10000) / 0x400, 0xdc00 + (c.toNat - 0x10000) % 0x400] := by
        unfold units16; rw [if_neg hb]
      have ek : (some c :: ps).filterMap kept16 = ps.filterMap kept16 := by simp [kept16, hb]
      rw [e, ek]
      simp only [List.cons_append, List.nil_append]
      unfold toUtf8of16
      rw [if_pos (by omega)]
      simp only
      rw [if_neg (by rw [not_or, Decidable.not_not, Decidable.not_not, mask_d8 _ (by omega), mask_dc _ (by omega)]; omega), ih]
      simp
  | stray u us ps hno hr ih =>
    have ih := ih (fun u hu => hlt u (List.mem_cons_of_mem _ hu))
    have hu := hlt u List.mem_cons_self
    have hs : 0xd800 ≤ u ∧ u ≤ 0xdfff := by
      by_cases hv : u < 55296 ∨ (57343 < u ∧ u < 1114112)
      · have e := toNat_ofNat u hv
        refine absurd ?_ (hno (Char.ofNat u))
        unfold units16
        rw [e, if_pos (by omega)]
        exact ⟨us, rfl⟩
      · omega
    have ek : (none :: ps).filterMap kept16 = replacement :: ps.filterMap kept16 := rfl
    rw [ek, encode_cons, utf8_replacement]
    unfold toUtf8of16
    rw [if_pos hs]
    cases us with
    | nil =>
      simp only
      rw [reads16_nil hr rfl]
      cases r <;> simp [encode]
    | cons d us =>
      simp only
      have hd := hlt d (by simp)
      rw [if_pos]
      · rw [ih]
        cases r <;> simp
      · rw [← Decidable.not_and_iff_not_or_not, mask_d8 _ hu, mask_dc _ hd]
        intro hp
        obtain ⟨c, hc⟩ := pair_char u d hp.1 hp.2
        exact hno c (by rw [hc]; exact ⟨us, rfl⟩)

theorem reads16_exists : ∀ (n : Nat) (us : List Nat), us.length ≤ n → ∃ ps, Reads16 us ps
  | 0, us, h => ⟨[], by rw [List.length_eq_zero_iff.mp (by omega : us.length = 0)]; exact .nil⟩
  | n + 1, [], _ => ⟨[], .nil⟩
  | n + 1, u :: us, h => by
    by_cases hc : ∃ c, units16 c <+: u :: us
    · obtain ⟨c, r, hr⟩ := hc
      have hl : 0 < (units16 c).length := by unfold units16; split <;> simp
      obtain ⟨ps, hp⟩ := reads16_exists n r
        (by have := congrArg List.length hr; simp only [List.length_append, List.length_cons] at this h; omega)
      exact ⟨some c :: ps, by rw [← hr]; exact .char c r ps hp⟩
    · obtain ⟨ps, hp⟩ := reads16_exists n us (by simp only [List.length_cons] at h; omega)
      exact ⟨none :: ps, .stray u us ps (fun c hp => hc ⟨c, hp⟩) hp⟩

theorem reads16_utf16 : ∀ cs : List Char, Reads16 (utf16 cs) (cs.map some)
  | [] => .nil
  | c :: cs => .char c (utf16 cs) _ (reads16_utf16 cs)

theorem reads16_all {us : List Nat} {ps : List (Option Char)} (h : Reads16 us ps) (ha : ∀ p ∈ ps, p.isSome = true) :
    ∃ cs, us = utf16 cs ∧ ps = cs.map some := by
  induction h with
  | nil => exact ⟨[], rfl, rfl⟩
  | char c us ps _ ih =>
    obtain ⟨cs, rfl, rfl⟩ := ih (fun p hp => ha p (List.mem_cons_of_mem _ hp))
    exact ⟨c :: cs, rfl, rfl⟩
  | stray u us ps _ _ _ =>
    have := ha none List.mem_cons_self
    cases this

theorem utf16_lt (cs : List Char) : ∀ u ∈ utf16 cs, u < 65536 := by
  intro u hu
  obtain ⟨c, _, h⟩ := List.mem_flatMap.mp hu
  exact units16_lt c u h

theorem toUtf8of16_utf16 (r : Bool) (cs : List Char) :
    toUtf8of16 r (utf16 cs) = some (encode (cs.filter fun c => decide (c.toNat < 0x10000))) := by
  rw [toUtf8of16_reads r (reads16_utf16 cs) (utf16_lt cs), if_pos (by simp)]
  congr 2
  induction cs with
  | nil => rfl
  | cons c cs ih =>
    rw [List.map_cons, List.filter_cons]
    by_cases h : c.toNat < 0x10000
    · rw [if_pos (by simpa using h), ← ih]; simp [kept16, h]
    · rw [if_neg (by simpa using h), ← ih]; simp [kept16, h]

end Fmt
end Efp
