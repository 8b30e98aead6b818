import Verif.Props.Fmt
import Verif.Props.FmtDebug

/-!
# Precisions (C98), debug texts of arbitrary bytes and of characters (C99), lines that do not fit (C102)
-/

namespace Efp
namespace Fmt

open Efp.Spec.Fmt

/-- a precision that is not taken: too many digits or too large -/
theorem precision_too_big {ty : Ty} (hty : ty ≠ .none) {c : Char} {ds : Str} (hd : ∀ d ∈ c :: ds, d.isDigit = true)
    (hb : ¬ ((c :: ds).length ≤ 10 ∧ decimal (c :: ds) ≤ 2147483647)) (f : Str) (n : Int) :
    Fails (parseFormatSpecs ty ('.' :: c :: (ds ++ '}' :: f)) n) := by
  have hc : isDigit c = true := by rw [isDigit_eq]; exact hd c (by simp)
  have hds : ∀ d ∈ ds, isDigit d = true := fun d h => by rw [isDigit_eq]; exact hd d (List.mem_cons_of_mem _ h)
  have hp := parseNonnegativeInt_eq c ds ('}' :: f) (-1) hc hds (by intro c r h; cases h; rfl)
  rw [if_neg hb] at hp
  have hr : (48 : Nat) ≤ c.toNat ∧ c.toNat ≤ 57 := by rw [isDigit_iff] at hc; exact hc
  have hne : ∀ x : Char, x.toNat < 48 ∨ 57 < x.toNat → c ≠ x := by rintro x hx rfl; omega
  have hal : parseAlign c = .none := by
    unfold parseAlign
    rw [if_neg (hne _ (by decide)), if_neg (hne _ (by decide)), if_neg (hne _ (by decide))]
  have e : parseFormatSpecs ty ('.' :: c :: (ds ++ '}' :: f)) n =
      specLoop ty ((ds ++ '}' :: f).length + 2) '.' '.' (c :: (ds ++ '}' :: f)) .start {} n := by
    simp only [parseFormatSpecs, hal, if_true]
  rw [e, specLoop_succ, if_neg (by decide), if_neg (by decide), if_neg (by decide), if_neg (by decide), if_neg (by decide),
    if_pos rfl, if_neg hty]
  refine Fails.bind fun cur _ => ?_
  have : parsePrecision ('.' :: c :: (ds ++ '}' :: f)) ({} : Specs).precision ({} : Specs).precisionRef n =
      .err "number is too big" := by
    simp only [parsePrecision, if_neg (hne '}' (by decide)), parseDynamicSpec, if_pos hc, hp, Res.bind_ok]
    rfl
  rw [this]
  exact fun a h => nomatch h

/-- a precision taken from the second argument -/
theorem dynamic_precision (s : Str) (hs : Bytes s) (a : Arg) (ha : ArgOk a) :
    (∀ v, dynValue a = some v → format "{:.{}}".toList [(none, .string s), (none, a)] =
      .ok (join ((pieces s).take v.toNat))) ∧
    (dynValue a = none → ∃ m, format "{:.{}}".toList [(none, .string s), (none, a)] = .err m) := by
  have hok : ∀ p ∈ ([(none, .string s), (none, a)] : List (Option Str × Arg)), ArgOk p.2 := by
    intro p hp
    simp only [List.mem_cons, List.not_mem_nil, or_false] at hp
    rcases hp with rfl | rfl
    · exact hs
    · exact ha
  have hv : ({ prec := some (.arg .auto) } : Opts).Valid .string := by
    refine ⟨by simp, by simp, by simp, by simp, by simp, ⟨trivial, by simp⟩, ?_, by simp, trivial⟩
    intro p hp
    simp only [Option.some.injEq] at hp
    subst hp
    exact ⟨.inr (.inl rfl), trivial, by simp⟩
  constructor
  · intro v hd
    have hv0 : 0 ≤ v := by
      have := hd
      unfold dynValue at this
      split at this <;> (try split at this) <;> simp at this <;> omega
    exact format_opts (l := [(none, .string s), (none, a)]) hok (len2 _ _) (a := (none, .string s)) rfl (str_ty _) _ hv
      (w := 0) (p := v) (n2 := 1) (n3 := 2) (text := join ((pieces s).take v.toNat))
      rfl (by simp [precValue, Num.value, Ref.take, hd]) (by
        simp [showSpecs, showStr, Opts.meaning, pad, copies, hv0])
  · intro hd
    refine fails_format (len2 _ _) hok (fails_field (after := ":.{}}".toList) fun s1 h1 x hx => ?_)
    cases h1
    exfalso
    have e := field_eval_colon (formatHandler (makeArgs [(none, .string s), (none, a)])) .auto trivial ".{}}".toList ⟨0, [] ++ []⟩
    rw [show Ref.text .auto ++ ':' :: ".{}}".toList = ":.{}}".toList from rfl] at e
    rw [e] at hx
    obtain ⟨b, h2, h3⟩ := Res.bind_eq_ok.mp hx
    obtain ⟨c, h4, _⟩ := Res.bind_eq_ok.mp h3
    obtain ⟨i, h5, _, h6⟩ := onArgId_sound (l := [(none, .string s), (none, a)]) (len2 _ _) .auto _ _ (i' := b.1) (s := b.2) h2
    simp only [Ref.take, Int.lt_irrefl, if_false, Option.some.injEq, Prod.mk.injEq] at h5
    rw [← h5.1] at h6
    have h7 := onFormatSpecs_eq (l := [(none, .string s), (none, a)]) (len2 _ _) b.1 h6 (str_ty _) ".{}}".toList b.2.next b.2.out
    change onFormatSpecs (makeArgs [(none, .string s), (none, a)]) b.1 ".{}}".toList ⟨b.2.next, b.2.out⟩ = _ at h4
    have hn : b.2.next = 1 := h5.2.symm
    rw [h7, hn] at h4
    have h8 := parseFormatSpecs_text (ty := .string) (by decide) hv [] 1
      (sp' := { precisionRef := .index 1 }) (n' := 2) rfl
    change parseFormatSpecs .string ".{}}".toList 1 = _ at h8
    change (parseFormatSpecs .string ".{}}".toList 1 >>= _) = _ at h4
    rw [h8, Res.bind_ok] at h4
    obtain ⟨q0, _, h4⟩ := Res.bind_eq_ok.mp h4
    obtain ⟨q, h9, _⟩ := Res.bind_eq_ok.mp h4
    have h10 : getArg (makeArgs [(none, .string s), (none, a)]) 1 = .ok a := by
      rw [getArg_eq [(none, .string s), (none, a)] (len2 _ _)]; rfl
    simp only [handleDynamicSpec] at h9
    rw [h10, Res.bind_ok] at h9
    have h11 := getDynamicSpec_eq "precision" a
    rw [hd, h9] at h11
    obtain ⟨m, h12⟩ := h11
    cases h12

/-- a piece that is a character consists of its bytes -/
theorem pieces_some (s : Str) (c : Char) (t : Str) : (some c, t) ∈ pieces s → t = utf8 c := by
  unfold pieces
  generalize s.length = n
  induction n generalizing s with
  | zero => intro h; cases h
  | succ n ih =>
    cases s with
    | nil => intro h; cases h
    | cons b r =>
      unfold piecesN
      split
      · intro h
        rcases List.mem_cons.mp h with h | h
        · cases h; rfl
        · exact ih _ h
      · intro h
        rcases List.mem_cons.mp h with h | h
        · cases h
        · exact ih _ h

end Fmt
namespace Props

open Efp.Spec.Fmt Efp.Fmt

/-! ## C98: precisions -/

/-- A precision written in the format string, in any row of digits: with up to ten digits it is taken exactly if it is at most
`INT_MAX`; any other one is rejected. -/
theorem C98_literal_precision (s : Str) (hs : Bytes s) (d : Str) (hne : d ≠ []) (hd : ∀ c ∈ d, c.isDigit = true) :
    (d.length ≤ 10 ∧ decimal d ≤ 2147483647 → format ('{' :: ':' :: '.' :: (d ++ ['}'])) [(none, .string s)] =
      .ok (join ((pieces s).take (decimal d)))) ∧
    (10 < d.length ∨ 2147483647 < decimal d → ∃ m, format ('{' :: ':' :: '.' :: (d ++ ['}'])) [(none, .string s)] = .err m) := by
  constructor
  · rintro ⟨hlen, hb⟩
    have hv : ({ prec := some (.lit d) } : Opts).Valid .string := by
      refine ⟨by simp, by simp, by simp, by simp, by simp, ⟨trivial, by simp⟩, ?_, by simp, trivial⟩
      intro p hp
      simp only [Option.some.injEq] at hp
      subst hp
      exact ⟨.inr (.inl rfl), ⟨hne, hd, hlen, hb⟩, by simp⟩
    have := format_opts (l := [(none, .string s)]) (ok1 (a := .string _) hs) (len1 _)
      (a := (none, .string s)) rfl (str_ty _) _ hv (w := 0) (p := decimal d) (n2 := 1) (n3 := 1)
      (text := join ((pieces s).take (decimal d))) rfl (by simp [precValue, Num.value]) (by
        simp [showSpecs, showStr, Opts.meaning, pad, copies])
    rw [← this]
    simp [Opts.text, alignText, signOptText, Num.text, precText, typeText]
  · intro hb
    obtain ⟨c, ds, rfl⟩ := List.exists_cons_of_ne_nil hne
    refine fails_format (len1 _) (ok1 (a := .string _) hs) (fails_field fun s1 h1 x hx => ?_)
    cases h1
    exfalso
    have e := field_eval_colon (formatHandler (makeArgs [(none, .string s)])) .auto trivial ('.' :: c :: (ds ++ '}' :: [])) ⟨0, [] ++ []⟩
    rw [show Ref.text .auto ++ ':' :: ('.' :: c :: (ds ++ '}' :: [])) = ':' :: ('.' :: (c :: ds ++ ['}'])) from rfl] at e
    rw [e] at hx
    obtain ⟨a, h2, h3⟩ := Res.bind_eq_ok.mp hx
    obtain ⟨b, h4, _⟩ := Res.bind_eq_ok.mp h3
    obtain ⟨i, h5, _, h6⟩ := onArgId_sound (l := [(none, .string s)]) (len1 _) .auto _ _ (i' := a.1) (s := a.2) h2
    simp only [Ref.take, Int.lt_irrefl, if_false, Option.some.injEq, Prod.mk.injEq] at h5
    rw [← h5.1] at h6
    have h7 := onFormatSpecs_eq (l := [(none, .string s)]) (len1 _) a.1 h6 (str_ty _) ('.' :: c :: (ds ++ '}' :: [])) a.2.next a.2.out
    change onFormatSpecs (makeArgs [(none, .string s)]) a.1 ('.' :: c :: (ds ++ '}' :: [])) ⟨a.2.next, a.2.out⟩ = _ at h4
    rw [h7] at h4
    obtain ⟨q, h8, _⟩ := Res.bind_eq_ok.mp h4
    exact precision_too_big (by nofun) hd (by omega) [] _ q h8

/-- A precision taken from an argument of an integer type of at most 64 bits is taken exactly if it is from 0 to `INT_MAX` and
rejected otherwise.  Missing from C98: integers of 128 bits (`C98_precision_wraps_128`). -/
theorem C98_dynamic_precision_partial (s : Str) (hs : Bytes s) (a : Arg) (ha : ArgOk a) (v : Int) (hv : wordValue a = some v) :
    (0 ≤ v ∧ v ≤ 2147483647 → format "{:.{}}".toList [(none, .string s), (none, a)] = .ok (join ((pieces s).take v.toNat))) ∧
    (v < 0 ∨ 2147483647 < v → ∃ m, format "{:.{}}".toList [(none, .string s), (none, a)] = .err m) := by
  have hmod : 0 ≤ v → v % 2 ^ 64 = v := by
    intro h
    have hlt : v < 2 ^ 64 := by
      cases a <;> simp only [wordValue, Option.some.injEq, reduceCtorEq] at hv <;> subst hv <;>
        simp only [ArgOk] at ha <;> omega
    exact Int.emod_eq_of_lt h hlt
  have hdyn : dynValue a = if 0 ≤ v ∧ v % 2 ^ 64 ≤ 2147483647 then some (v % 2 ^ 64) else none := by
    cases a <;> simp only [wordValue, Option.some.injEq, reduceCtorEq] at hv <;> subst hv
    · rfl
    · simp only [dynValue]; split <;> split <;> first | rfl | omega
    · rfl
    · simp only [dynValue]; split <;> split <;> first | rfl | omega
  obtain ⟨h1, h2⟩ := dynamic_precision s hs a ha
  constructor
  · rintro ⟨h3, h4⟩
    exact h1 v (by rw [hdyn, hmod h3, if_pos ⟨h3, h4⟩])
  · intro h3
    apply h2
    rw [hdyn, if_neg]
    rintro ⟨h4, h5⟩
    rw [hmod h4] at h5; omega

/-- A precision taken from a 128-bit integer is reduced modulo 2^64: precisions far beyond `INT_MAX` cut off text. -/
theorem C98_precision_wraps_128 (s : Str) (hs : Bytes s) (k p : Nat) (hk : k < 2 ^ 63) (hp : p ≤ 2147483647) :
    format "{:.{}}".toList [(none, .string s), (none, .int128 (k * 2 ^ 64 + p))] = .ok (join ((pieces s).take p)) := by
  have := (dynamic_precision s hs (.int128 (k * 2 ^ 64 + p)) ⟨by omega, by omega⟩).1 p (by
    have e : ((k : Int) * 2 ^ 64 + p) % 2 ^ 64 = p := by omega
    simp only [dynValue]
    rw [e, if_pos (by omega)])
  simpa using this

example : format "{:.0000000002}".toList [(none, .string "abc".toList)] = .ok "ab".toList ∧
    format "{:.2147483648}".toList [(none, .string "abc".toList)] = .err "number is too big" ∧
    format "{:.{}}".toList [(none, .string "abc".toList), (none, .int 2)] = .ok "ab".toList ∧
    format "{:.{}}".toList [(none, .string "abc".toList), (none, .int (-1))] = .err "negative precision" := by decide +kernel

/-! ## C99: arbitrary bytes, and characters -/

/-- The debug text of any bytes, UTF-8 or not, is enclosed in quotes and has no control bytes. -/
theorem C99_printable_bytes (s : Str) (hs : Bytes s) :
    ∃ t, format "{:?}".toList [(none, .string s)] = .ok ('"' :: (t ++ ['"'])) ∧ ∀ b ∈ t, 32 ≤ b.toNat ∧ b.toNat ≠ 127 := by
  refine ⟨(pieces s).flatMap (escapePiece isPrintable), C99_quoted s hs, ?_⟩
  intro b hb
  obtain ⟨⟨o, t⟩, hp, h⟩ := List.mem_flatMap.mp hb
  cases o with
  | none =>
    obtain ⟨x, _, h⟩ := List.mem_flatMap.mp h
    simp only [List.mem_cons] at h
    rcases h with rfl | rfl | h
    · decide
    · decide
    · have := hex_bytes _ _ b h; omega
  | some c =>
    have ht : t = utf8 c := pieces_some s c t hp
    subst ht
    exact code_printable isPrintable c b h

/-- The debug text of a `char`: enclosed in single quotes, without control bytes; a visible character other than the quote and the
backslash appears as it is. -/
theorem C99_char_text (c : Char) (hc : c.toNat < 256) :
    ∃ t, format "{:?}".toList [(none, .char c)] = .ok ('\'' :: (t ++ ['\''])) ∧ (∀ b ∈ t, 32 ≤ b.toNat ∧ b.toNat ≠ 127) ∧
      (32 ≤ c.toNat → c.toNat < 127 → c ≠ '\'' → c ≠ '\\' → t = [c]) := by
  have hv : ({ type := .debug } : Opts).Valid .char :=
    ⟨by simp, by simp, by simp, by simp, by simp, ⟨trivial, by simp⟩, by simp, by simp, .inl rfl⟩
  have e := format_opts (l := [(none, .char c)]) (ok1 (a := .char _) hc) (len1 _)
      (a := (none, .char c)) rfl (by nofun) _ hv (w := 0) (p := -1) (n2 := 1) (n3 := 1) (text := escapeByte isPrintable c)
      rfl rfl (by simp [showSpecs, showChar, Opts.meaning, pad, copies])
  have key : ∀ i < 256, ∃ t, escapeByte isPrintable (Char.ofNat i) = '\'' :: (t ++ ['\'']) ∧ (∀ b ∈ t, 32 ≤ b.toNat ∧ b.toNat ≠ 127) ∧
      (32 ≤ i → i < 127 → Char.ofNat i ≠ '\'' → Char.ofNat i ≠ '\\' → t = [Char.ofNat i]) := by
    have h1 : ∀ i < 256, escapeByte isPrintable (Char.ofNat i) =
        '\'' :: ((escapeByte isPrintable (Char.ofNat i)).tail.dropLast ++ ['\'']) := by decide +kernel
    have h2 : ∀ i < 256, ((escapeByte isPrintable (Char.ofNat i)).tail.dropLast.all fun b => decide (32 ≤ b.toNat ∧ b.toNat ≠ 127)) = true := by
      decide +kernel
    have h3 : ∀ i < 127, (32 ≤ i ∧ i ≠ 39 ∧ i ≠ 92) → (escapeByte isPrintable (Char.ofNat i)).tail.dropLast = [Char.ofNat i] := by
      decide +kernel
    refine fun i hi => ⟨_, h1 i hi, fun b hb => by simpa using List.all_eq_true.mp (h2 i hi) b hb, ?_⟩
    exact fun g1 g2 g3 g4 => h3 i g2 ⟨g1, fun e => g3 (by rw [e]), fun e => g4 (by rw [e])⟩
  have back : Char.ofNat c.toNat = c := char_ext (toNat_ofNat _ (by omega))
  obtain ⟨t, h1, h2, h3⟩ := key c.toNat hc
  rw [back] at h1 h3
  exact ⟨t, by rw [← h1]; exact e, h2, h3⟩

example : format "{:?}".toList [(none, .string [Char.ofNat 0xff, 'a', Char.ofNat 1])] = .ok "\"\\xffa\\x01\"".toList ∧
    format "{:?}".toList [(none, .char 'x')] = .ok "'x'".toList := by decide +kernel

/-! ## C102 -/

/-- `println` to a file that takes only part of the line: it keeps that part, and the call reports an error. -/
theorem C102_println_full (l : List (Option Str × Arg)) (fmt : Str) (f : Out1) (t : Str) (h : format fmt l = .ok t) (hb : Bytes t)
    (hr : f.room ≤ t.length) :
    (∃ m, (println fmt l f).1 = .err m) ∧ (println fmt l f).2.content = f.content ++ (t ++ ['\n']).take f.room := by
  have hf : format "{}\n".toList [(none, .string t)] = .ok (t ++ ['\n']) := by
    have h1 := C93_automatic [(none, .string t)] (len1 _) (ok1 (a := .string _) hb) 1 (by simp) [t] rfl
    have h2 := C94_suffix [(none, .string t)] (len1 _) (ok1 (a := .string _) hb) (by simp [Arg.ty]) ['\n'] _ _
      (by intro c hc; rw [List.mem_singleton.mp hc]; decide) h1
    rw [List.flatten_cons, List.flatten_nil, List.append_nil] at h2
    exact h2
  unfold println
  rw [h]
  exact (C102_print _ _ f).2.1 _ hf (by simp; omega)

example : (println "x={}".toList [(none, .int 5)] ⟨"a\n".toList, 2⟩).2.content = "a\nx=".toList := by decide +kernel

end Props
end Efp
