import Verif.Fmt.Utf16Lemmas

/-!
# Properties of the converters between UTF-8, UTF-16 and UTF-32 (C128)
-/

namespace Efp
namespace Props

open Efp.Spec.Fmt Efp.Fmt

/-- A `utf8_to_utf16` of a UTF-8 text shows the UTF-16 encoding of its characters, with a zero unit behind it, and its
size is the number of units. -/
theorem C128_to_utf16 (cs : List Char) : ∃ buf, utf8ToUtf16Buffer (encode cs) = .ok buf ∧
    bufStr buf = utf16 cs ∧ bufSize buf = (utf16 cs).length ∧ buf[bufSize buf]? = some 0 := by
  refine ⟨utf16 cs ++ [0], ?_, by simp [bufStr, bufSize], by simp [bufSize], by simp [bufSize]⟩
  unfold utf8ToUtf16Buffer
  rw [utf8ToUtf16_encode]
  rfl

/-- Bytes that are not the encoding of any text are refused with an exception; no bytes are undefined behaviour. -/
theorem C128_to_utf16_refuses (s : Str) (hs : Bytes s) (h : ∀ cs, s ≠ encode cs) :
    utf8ToUtf16Buffer s = .err "invalid utf8" := by
  unfold utf8ToUtf16Buffer
  rw [utf8ToUtf16_other s hs h]
  rfl

/-- A `to_utf8` of 4-byte units shows the UTF-8 encoding of the text whose code points the units are. -/
theorem C128_from_utf32 (cs : List Char) : ∃ buf, toUtf8Buffer32 (utf32 cs) = .ok buf ∧
    bufStr buf = encode cs ∧ bufSize buf = (encode cs).length ∧ buf[bufSize buf]? = some (Char.ofNat 0) := by
  refine ⟨encode cs ++ [Char.ofNat 0], ?_, by simp [bufStr, bufSize], by simp [bufSize], by simp [bufSize]⟩
  unfold toUtf8Buffer32
  rw [toUtf8of32_utf32]

/-- Units of which one is no code point, for instance a surrogate, are refused with an exception. -/
theorem C128_from_utf32_refuses (us : List Nat) (h : ∀ cs, us ≠ utf32 cs) :
    toUtf8Buffer32 us = .err "invalid utf32" := by
  unfold toUtf8Buffer32
  cases e : toUtf8of32 us with
  | none => rfl
  | some t =>
    obtain ⟨cs, hc, _⟩ := (toUtf8of32_iff us t).mp e
    exact absurd hc (h cs)

/-- A `to_utf8` of 2-byte units shows the UTF-8 encoding of the text whose UTF-16 encoding the units are, if all its
characters are below 2¹⁶.  Missing: characters written as a pair of surrogates, see `C128_from_utf16_fails`. -/
theorem C128_from_utf16_partial (replace : Bool) (cs : List Char) (hc : ∀ c ∈ cs, c.toNat < 0x10000) :
    ∃ buf, toUtf8Buffer16 replace (utf16 cs) = .ok buf ∧
      bufStr buf = encode cs ∧ bufSize buf = (encode cs).length ∧ buf[bufSize buf]? = some (Char.ofNat 0) := by
  refine ⟨encode cs ++ [Char.ofNat 0], ?_, by simp [bufStr, bufSize], by simp [bufSize], by simp [bufSize]⟩
  unfold toUtf8Buffer16
  rw [toUtf8of16_utf16, List.filter_eq_self.mpr (fun c h => by simpa using hc c h)]

/-- Characters written as a pair of surrogates vanish: the text that comes out is that of the other characters. -/
theorem C128_from_utf16_loses (replace : Bool) (cs : List Char) :
    ∃ buf, toUtf8Buffer16 replace (utf16 cs) = .ok buf ∧
      bufStr buf = encode (cs.filter fun c => decide (c.toNat < 0x10000)) := by
  refine ⟨encode (cs.filter fun c => decide (c.toNat < 0x10000)) ++ [Char.ofNat 0], ?_, by simp [bufStr, bufSize]⟩
  unfold toUtf8Buffer16
  rw [toUtf8of16_utf16]

/-- So the conversion from UTF-16 is not right for every text. -/
theorem C128_from_utf16_fails : ¬ ∀ (replace : Bool) (cs : List Char),
    ∃ buf, toUtf8Buffer16 replace (utf16 cs) = .ok buf ∧ bufStr buf = encode cs := by
  intro h
  obtain ⟨buf, h1, h2⟩ := h false ['😀']
  obtain ⟨buf', h3, h4⟩ := C128_from_utf16_loses false ['😀']
  rw [h1] at h3
  cases h3
  rw [h2] at h4
  exact absurd h4 (by decide +kernel)

/-- Units with an unpaired surrogate are refused with an exception, and no others are, if errors are not replaced. -/
theorem C128_from_utf16_refuses (us : List Nat) (hu : ∀ u ∈ us, u < 2 ^ 16) :
    toUtf8Buffer16 false us = .err "invalid utf16" ↔ ∀ cs, us ≠ utf16 cs := by
  obtain ⟨ps, hp⟩ := reads16_exists _ us (Nat.le_refl _)
  have e := toUtf8of16_reads false hp hu
  unfold toUtf8Buffer16
  constructor
  · rintro h cs rfl
    rw [toUtf8of16_utf16] at h
    cases h
  · intro h
    rw [e, if_neg]
    rintro (hf | ha)
    · cases hf
    · obtain ⟨cs, hc, _⟩ := reads16_all hp ha
      exact h cs hc

/-- If errors are replaced, every unpaired surrogate becomes the replacement character and the rest stays, for units
without pairs of surrogates.  Missing: pairs, which vanish here too. -/
theorem C128_from_utf16_replaces_partial (us : List Nat) (hu : ∀ u ∈ us, u < 2 ^ 16) (ps : List (Option Char))
    (hr : Reads16 us ps) (hb : ∀ c, some c ∈ ps → c.toNat < 0x10000) :
    ∃ buf, toUtf8Buffer16 true us = .ok buf ∧ bufStr buf = encode (ps.map (·.getD replacement)) := by
  have e := toUtf8of16_reads true hr hu
  refine ⟨encode (ps.map (·.getD replacement)) ++ [Char.ofNat 0], ?_, by simp [bufStr, bufSize]⟩
  unfold toUtf8Buffer16
  rw [e, if_pos (.inl rfl)]
  have : ps.filterMap kept16 = ps.map (·.getD replacement) := by
    clear e hr
    induction ps with
    | nil => rfl
    | cons p ps ih =>
      have ih := ih (fun c hc => hb c (List.mem_cons_of_mem _ hc))
      cases p with
      | none => rw [List.map_cons, ← ih]; rfl
      | some c =>
        have := hb c List.mem_cons_self
        rw [List.map_cons, ← ih]
        simp [kept16, this]
  rw [this]

/-- What comes out of any units whatever if errors are replaced: they have a reading, in which every unpaired surrogate counts as a
replacement character, and the characters of it below 2¹⁶ come out; those written as a pair of surrogates vanish. -/
theorem C128_from_utf16_replaces_loses (us : List Nat) (hu : ∀ u ∈ us, u < 2 ^ 16) :
    ∃ ps buf, Reads16 us ps ∧ toUtf8Buffer16 true us = .ok buf ∧
      bufStr buf = encode ((ps.map (·.getD replacement)).filter fun c => decide (c.toNat < 0x10000)) := by
  obtain ⟨ps, hr⟩ := reads16_exists _ us (Nat.le_refl _)
  have e := toUtf8of16_reads true hr hu
  refine ⟨ps, encode ((ps.map (·.getD replacement)).filter fun c => decide (c.toNat < 0x10000)) ++ [Char.ofNat 0], hr, ?_,
    by simp [bufStr, bufSize]⟩
  unfold toUtf8Buffer16
  rw [e, if_pos (.inl rfl)]
  have : ps.filterMap kept16 = (ps.map (·.getD replacement)).filter fun c => decide (c.toNat < 0x10000) := by
    clear e hr
    induction ps with
    | nil => rfl
    | cons p ps ih =>
      rw [List.filterMap_cons, List.map_cons, List.filter_cons, ih]
      cases p with
      | none => rw [show kept16 none = some replacement from rfl]; rw [if_pos (by decide)]; rfl
      | some c => by_cases h : c.toNat < 0x10000 <;> simp [kept16, h]
  rw [this]

/-- There and back: a UTF-8 text without characters beyond 2¹⁶ survives the way through UTF-16.  Missing: other
characters, see `C128_from_utf16_loses`. -/
theorem C128_round_trip_partial (replace : Bool) (cs : List Char) (hc : ∀ c ∈ cs, c.toNat < 0x10000) :
    ∃ b16 b8, utf8ToUtf16Buffer (encode cs) = .ok b16 ∧ toUtf8Buffer16 replace (bufStr b16) = .ok b8 ∧
      bufStr b8 = encode cs := by
  obtain ⟨b16, h1, h2, _⟩ := C128_to_utf16 cs
  obtain ⟨b8, h3, h4, _⟩ := C128_from_utf16_partial replace cs hc
  exact ⟨b16, b8, h1, by rw [h2]; exact h3, h4⟩

example : utf8ToUtf16Buffer (encode ['a', 'ä', '한', '😀']) = .ok [0x61, 0xe4, 0xd55c, 0xd83d, 0xde00, 0] := by
  decide +kernel
example : Bytes [Char.ofNat 0xc3] ∧ ∀ cs, [Char.ofNat 0xc3] ≠ encode cs := by
  refine ⟨by intro c hc; simp only [List.mem_singleton] at hc; subst hc; decide, ?_⟩
  intro cs h
  have h1 := C128_to_utf16 cs
  rw [← h] at h1
  obtain ⟨buf, hb, _⟩ := h1
  have : utf8ToUtf16Buffer [Char.ofNat 0xc3] = .err "invalid utf8" := by decide +kernel
  rw [this] at hb
  cases hb
example : toUtf8Buffer32 [0x61, 0x1f600] = .ok (encode ['a', '😀'] ++ [Char.ofNat 0]) := by decide +kernel
example : ∀ cs, [0xd800] ≠ utf32 cs := by
  intro cs h
  obtain ⟨buf, hb, _⟩ := C128_from_utf32 cs
  rw [← h] at hb
  have : toUtf8Buffer32 [0xd800] = .err "invalid utf32" := by decide +kernel
  rw [this] at hb
  cases hb
example : ∀ c ∈ ['a', 'ä', '한'], c.toNat < 0x10000 := by decide +kernel
example : toUtf8Buffer16 false (utf16 ['a', '😀', 'b']) = .ok ['a', 'b', Char.ofNat 0] := by decide +kernel
example : toUtf8Buffer16 false [0x61, 0xdc00] = .err "invalid utf16" := by decide +kernel
/-- an unpaired surrogate between two letters -/
example : Reads16 [0x61, 0xdc00, 0x62] [some 'a', none, some 'b'] :=
  .char 'a' _ _ (.stray _ _ _ (by
    intro c hp
    have hs := not_surrogate c
    have hm := toNat_lt c
    unfold units16 at hp
    split at hp
    · rw [List.cons_prefix_cons] at hp; omega
    · rw [List.cons_prefix_cons] at hp; omega) (.char 'b' _ _ .nil))

end Props
end Efp
