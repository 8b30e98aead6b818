import Verif.Fmt.Reverse

/-!
# Properties of debug texts (C99)
-/

namespace Efp
namespace Props

open Efp.Spec.Fmt Efp.Fmt

/-! ## C99 -/

/-- `{:?}` of a string is its quoted text. -/
theorem C99_quoted (s : Str) (hs : Bytes s) :
    format "{:?}".toList [(none, .string s)] = .ok (escape isPrintable s) := by
  have hv : ({ type := .debug } : Opts).Valid .string :=
    ⟨by simp, by simp, by simp, by simp, by simp, ⟨trivial, by simp⟩, by simp, by simp, .inr (.inl rfl)⟩
  exact format_opts (l := [(none, .string s)]) (ok1 (a := .string _) hs) (len1 _)
    (a := (none, .string s)) rfl (str_ty _) _ hv (w := 0) (p := -1) (n2 := 1) (n3 := 1) (text := escape isPrintable s)
    rfl rfl (by simp [showSpecs, showStr, Opts.meaning, pad, copies])

/-- Different UTF-8 texts have different debug texts.  Missing from C99: strings that are no UTF-8
(`C99_stray_bytes`). -/
theorem C99_reversible_partial (cs ds : List Char)
    (h : format "{:?}".toList [(none, .string (encode cs))] = format "{:?}".toList [(none, .string (encode ds))]) :
    cs = ds := by
  rw [C99_quoted _ (encode_bytes cs), C99_quoted _ (encode_bytes ds)] at h
  have h := Res.ok.inj h
  rw [escape_encode, escape_encode] at h
  exact codes_inj isPrintable cs ds (List.cons.inj h).2

/-- The debug text of a UTF-8 text is enclosed in quotes and has no control bytes. -/
theorem C99_printable (cs : List Char) :
    ∃ t, format "{:?}".toList [(none, .string (encode cs))] = .ok ('"' :: (t ++ ['"'])) ∧
      ∀ b ∈ t, 32 ≤ b.toNat ∧ b.toNat ≠ 127 := by
  refine ⟨cs.flatMap (code isPrintable), ?_, ?_⟩
  · rw [C99_quoted _ (encode_bytes cs), escape_encode]
  · intro b hb
    obtain ⟨c, _, h⟩ := List.mem_flatMap.mp hb
    exact code_printable isPrintable c b h

/-- Visible ASCII characters other than the quote and the backslash appear as they are. -/
theorem C99_plain (s : Str) (hs : ∀ c ∈ s, 32 ≤ c.toNat ∧ c.toNat < 127 ∧ c ≠ '"' ∧ c ≠ '\\') :
    format "{:?}".toList [(none, .string s)] = .ok ('"' :: (s ++ ['"'])) := by
  have hp : ∀ n < 127, 32 ≤ n → isPrintable n = true := by decide +kernel
  have he : encode s = s := by
    clear hp
    induction s with
    | nil => rfl
    | cons c s ih =>
      have hc := hs c (by simp)
      show utf8 c ++ encode s = c :: s
      rw [ih (fun d hd => hs d (by simp [hd])), utf8_small c (by omega)]
      rfl
  have hcode : s.flatMap (code isPrintable) = s := by
    clear he
    induction s with
    | nil => rfl
    | cons c s ih =>
      have hc := hs c (by simp)
      have hn : ∀ d : Char, d.toNat < 32 → c ≠ d := fun d hd he => by rw [he] at hc; omega
      have e : code isPrintable c = [c] := by
        have e : code isPrintable c = if c = '\n' then ['\\', 'n'] else if c = '\r' then ['\\', 'r']
            else if c = '\t' then ['\\', 't'] else if c = '"' then ['\\', '"'] else if c = '\\' then ['\\', '\\']
            else if 0x20 ≤ c.toNat ∧ c.toNat ≠ 0x7f ∧ isPrintable c.toNat = true then utf8 c
            else if c.toNat < 0x100 then '\\' :: 'x' :: hex 2 c.toNat
            else if c.toNat < 0x10000 then '\\' :: 'u' :: hex 4 c.toNat
            else '\\' :: 'U' :: hex 8 c.toNat := rfl
        rw [e, if_neg (hn '\n' (by decide)), if_neg (hn '\r' (by decide)), if_neg (hn '\t' (by decide)), if_neg hc.2.2.1,
          if_neg hc.2.2.2, if_pos ⟨hc.1, by omega, hp _ hc.2.1 hc.1⟩, utf8_small c (by omega)]
      show code isPrintable c ++ s.flatMap (code isPrintable) = c :: s
      rw [ih (fun d hd => hs d (by simp [hd])), e]
      rfl
  have h := C99_quoted (encode s) (encode_bytes s)
  rw [escape_encode, hcode, he] at h
  exact h

example : format "{:?}".toList [(none, .string "it's plain".toList)] = .ok "\"it's plain\"".toList :=
  C99_plain _ (by decide +kernel)

/-- Different `char`s have different debug texts. -/
theorem C99_char (a b : Char) (ha : a.toNat < 256) (hb : b.toNat < 256)
    (h : format "{:?}".toList [(none, .char a)] = format "{:?}".toList [(none, .char b)]) : a = b := by
  have hv : ({ type := .debug } : Opts).Valid .char :=
    ⟨by simp, by simp, by simp, by simp, by simp, ⟨trivial, by simp⟩, by simp, by simp, .inl rfl⟩
  have e : ∀ c : Char, c.toNat < 256 → format "{:?}".toList [(none, .char c)] = .ok (escapeByte isPrintable c) := by
    intro c hc
    exact format_opts (l := [(none, .char c)]) (ok1 (a := .char _) hc) (len1 _)
      (a := (none, .char c)) rfl (by nofun) _ hv (w := 0) (p := -1) (n2 := 1) (n3 := 1) (text := escapeByte isPrintable c)
      rfl rfl (by simp [showSpecs, showChar, Opts.meaning, pad, copies])
  rw [e a ha, e b hb] at h
  have h := Res.ok.inj h
  have key : ∀ i < 256, ∀ j < 256, escapeByte isPrintable (Char.ofNat i) = escapeByte isPrintable (Char.ofNat j) → i = j := by
    have hu : ∀ i < 256, unquote (escapeByte isPrintable (Char.ofNat i)) = i := by decide +kernel
    intro i hi j hj h
    rw [← hu i hi, h, hu j hj]
  have back : ∀ c : Char, c.toNat < 256 → Char.ofNat c.toNat = c := fun c hc => char_ext (toNat_ofNat _ (by omega))
  exact char_ext (key a.toNat ha b.toNat hb (by rw [back a ha, back b hb]; exact h))

/-- A string with a stray byte can have the debug text of a different string, so the debug text cannot be read back in
general: the byte 85 and the encoding of U+0085. -/
theorem C99_stray_bytes :
    format "{:?}".toList [(none, .string [Char.ofNat 0x85])] = format "{:?}".toList [(none, .string (utf8 (Char.ofNat 0x85)))] ∧
    [Char.ofNat 0x85] ≠ utf8 (Char.ofNat 0x85) := by decide +kernel

/-- a text with a quote, a newline and two other characters -/
example : format "{:?}".toList [(none, .string (encode ['a', '"', '\n', 'ä', Char.ofNat 0x200b]))] =
    .ok ("\"a\\\"\\n".toList ++ utf8 'ä' ++ "\\u200b\"".toList) := by decide +kernel

/-- A `char` in debug presentation is padded as if it took one column, so with a width its field is wider than asked
for: the three bytes of a quoted letter in a field of width four make six. -/
theorem C99_char_width_wrong :
    format "{:4?}".toList [(none, .char 'a')] = .ok "'a'   ".toList := by decide +kernel

end Props
end Efp
