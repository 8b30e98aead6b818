import Verif.Fmt.Corollaries

/-!
# Reading debug texts back
-/

namespace Efp
namespace Fmt

open Spec.Fmt

theorem readNat_zeros' (b : Nat) (d : Str) : ∀ z, readNat b (List.replicate z '0' ++ d) = readNat b d
  | 0 => rfl
  | z + 1 => by
    rw [List.replicate_succ, List.cons_append]
    have := readNat_zeros' b d z
    unfold readNat at this ⊢
    rw [List.foldl_cons]
    simpa [digitValue] using this

theorem readNat_hex (w n : Nat) : readNat 16 (hex w n) = n := by
  unfold hex
  rw [readNat_zeros', readNat_toDigits (by omega) (by omega)]

theorem hex_length (w n : Nat) (hw : 0 < w) (h : n < 16 ^ w) : (hex w n).length = w := by
  have := (Nat.length_toDigits_le_iff (b := 16) (n := n) (k := w) (by omega) hw).mpr h
  unfold hex
  rw [List.length_append, List.length_replicate]; omega

theorem hex_eq {w n m : Nat} {r s : Str} (hw : 0 < w) (hn : n < 16 ^ w) (hm : m < 16 ^ w) (h : hex w n ++ r = hex w m ++ s) :
    n = m ∧ r = s := by
  have e := List.append_inj h (by rw [hex_length w n hw hn, hex_length w m hw hm])
  refine ⟨?_, e.2⟩
  rw [← readNat_hex w n, e.1, readNat_hex]

theorem hex_bytes (w n : Nat) : ∀ c ∈ hex w n, 48 ≤ c.toNat ∧ c.toNat < 127 := by
  have hd : ∀ v < 16, 48 ≤ (Nat.digitChar v).toNat ∧ (Nat.digitChar v).toNat < 127 := by decide
  have ht : ∀ n, ∀ c ∈ Nat.toDigits 16 n, 48 ≤ c.toNat ∧ c.toNat < 127 := by
    intro n
    induction n using Nat.strongRecOn with
    | ind n ih =>
      intro c hc
      by_cases h : n < 16
      · rw [Nat.toDigits_of_lt_base h, List.mem_singleton] at hc
        rw [hc]; exact hd n h
      · rw [Nat.toDigits_of_base_le (by omega) (by omega), List.mem_append, List.mem_singleton] at hc
        rcases hc with hc | hc
        · exact ih _ (Nat.div_lt_self (by omega) (by omega)) c hc
        · rw [hc]; exact hd _ (Nat.mod_lt _ (by omega))
  intro c hc
  rcases List.mem_append.mp hc with h | h
  · rw [(List.mem_replicate.mp h).2]; decide
  · exact ht n c h

/-- the text of one character inside the quotes -/
def code (P : Nat → Bool) (c : Char) : Str := escapePiece P (some c, utf8 c)

theorem utf8_small (c : Char) (h : c.toNat < 128) : utf8 c = [c] := by
  rw [utf8_eq, if_pos h]
  exact congrArg (fun x => [x]) (char_ext (toNat_ofNat _ (by omega)))

theorem utf8_large (c : Char) (h : 128 ≤ c.toNat) : ∀ b ∈ utf8 c, 128 ≤ b.toNat := by
  have hc : c.toNat < 1114112 := by
    rcases c.valid with h | h
    · exact Nat.lt_trans h (by decide)
    · exact h.2
  intro b hb
  rw [utf8_eq, if_neg (by omega)] at hb
  have go : ∀ n, 128 ≤ n → n < 256 → 128 ≤ (Char.ofNat n).toNat := fun n h1 h2 => by rw [toNat_ofNat _ (by omega)]; exact h1
  split at hb
  · simp only [List.mem_cons, List.not_mem_nil, or_false] at hb
    rcases hb with rfl | rfl <;> exact go _ (by omega) (by omega)
  split at hb
  · simp only [List.mem_cons, List.not_mem_nil, or_false] at hb
    rcases hb with rfl | rfl | rfl <;> exact go _ (by omega) (by omega)
  · simp only [List.mem_cons, List.not_mem_nil, or_false] at hb
    rcases hb with rfl | rfl | rfl | rfl <;> exact go _ (by omega) (by omega)

theorem code_cases (P : Nat → Bool) (c : Char) :
    (c = '\n' ∧ code P c = ['\\', 'n']) ∨ (c = '\r' ∧ code P c = ['\\', 'r']) ∨ (c = '\t' ∧ code P c = ['\\', 't']) ∨
    (c = '"' ∧ code P c = ['\\', '"']) ∨ (c = '\\' ∧ code P c = ['\\', '\\']) ∨
    (c ≠ '"' ∧ c ≠ '\\' ∧ 32 ≤ c.toNat ∧ c.toNat ≠ 127 ∧ code P c = utf8 c) ∨
    (c.toNat < 256 ∧ code P c = '\\' :: 'x' :: hex 2 c.toNat) ∨
    (c.toNat < 65536 ∧ code P c = '\\' :: 'u' :: hex 4 c.toNat) ∨
    code P c = '\\' :: 'U' :: hex 8 c.toNat := by
  have e : code P c = if c = '\n' then ['\\', 'n'] else if c = '\r' then ['\\', 'r'] else if c = '\t' then ['\\', 't']
      else if c = '"' then ['\\', '"'] else if c = '\\' then ['\\', '\\']
      else if 0x20 ≤ c.toNat ∧ c.toNat ≠ 0x7f ∧ P c.toNat = true then utf8 c
      else if c.toNat < 0x100 then '\\' :: 'x' :: hex 2 c.toNat
      else if c.toNat < 0x10000 then '\\' :: 'u' :: hex 4 c.toNat
      else '\\' :: 'U' :: hex 8 c.toNat := rfl
  rw [e]
  by_cases h1 : c = '\n'
  · exact .inl ⟨h1, if_pos h1⟩
  rw [if_neg h1]; right
  by_cases h2 : c = '\r'
  · exact .inl ⟨h2, if_pos h2⟩
  rw [if_neg h2]; right
  by_cases h3 : c = '\t'
  · exact .inl ⟨h3, if_pos h3⟩
  rw [if_neg h3]; right
  by_cases h4 : c = '"'
  · exact .inl ⟨h4, if_pos h4⟩
  rw [if_neg h4]; right
  by_cases h5 : c = '\\'
  · exact .inl ⟨h5, if_pos h5⟩
  rw [if_neg h5]; right
  by_cases h6 : 0x20 ≤ c.toNat ∧ c.toNat ≠ 0x7f ∧ P c.toNat = true
  · exact .inl ⟨h4, h5, h6.1, h6.2.1, if_pos h6⟩
  rw [if_neg h6]; right
  by_cases h7 : c.toNat < 0x100
  · exact .inl ⟨h7, if_pos h7⟩
  rw [if_neg h7]; right
  by_cases h8 : c.toNat < 0x10000
  · exact .inl ⟨h8, if_pos h8⟩
  rw [if_neg h8]; exact .inr rfl

theorem code_bytes (P : Nat → Bool) (c : Char) : Bytes (code P c) := by
  have hx : ∀ w n, Bytes (hex w n) := fun w n x h => by have := hex_bytes w n x h; omega
  have cons : ∀ (a b : Char) (r : Str), a.toNat < 256 → b.toNat < 256 → Bytes r → Bytes (a :: b :: r) := by
    intro a b r ha hb hr x hx
    simp only [List.mem_cons] at hx
    rcases hx with rfl | rfl | h
    · exact ha
    · exact hb
    · exact hr x h
  rcases code_cases P c with h | h | h | h | h | h | h | h | h
  · rw [h.2]; exact cons _ _ _ (by decide) (by decide) nofun
  · rw [h.2]; exact cons _ _ _ (by decide) (by decide) nofun
  · rw [h.2]; exact cons _ _ _ (by decide) (by decide) nofun
  · rw [h.2]; exact cons _ _ _ (by decide) (by decide) nofun
  · rw [h.2]; exact cons _ _ _ (by decide) (by decide) nofun
  · rw [h.2.2.2.2]; exact utf8_bytes c
  · rw [h.2]; exact cons _ _ _ (by decide) (by decide) (hx _ _)
  · rw [h.2]; exact cons _ _ _ (by decide) (by decide) (hx _ _)
  · rw [h]; exact cons _ _ _ (by decide) (by decide) (hx _ _)

/-- what a raw character begins with -/
theorem utf8_head (c : Char) : ∃ b r, utf8 c = b :: r ∧ (b.toNat < 128 → b = c) := by
  by_cases h : c.toNat < 128
  · exact ⟨c, [], utf8_small c h, fun _ => rfl⟩
  · cases hu : utf8 c with
    | nil => have := utf8_length_pos c; rw [hu] at this; exact absurd this (Nat.lt_irrefl _)
    | cons b r =>
      refine ⟨b, r, rfl, fun hb => ?_⟩
      have := utf8_large c (by omega) b (by rw [hu]; simp)
      omega

theorem code_inj (P : Nat → Bool) (c d : Char) (r s : Str) (hr : Bytes r) (hs : Bytes s)
    (h : code P c ++ r = code P d ++ s) : c = d ∧ r = s := by
  have c32 : ∀ x : Char, x.toNat < 16 ^ 8 := by
    intro x
    have := x.valid
    have h2 : x.toNat < 1114112 := by
      rcases this with h | h
      · exact Nat.lt_trans h (by decide)
      · exact h.2
    omega
  have raw : ∀ (x : Char) (t u : Str), x ≠ '\\' → utf8 x ++ t ≠ '\\' :: u := by
    intro x t u hx he
    obtain ⟨b, q, h1, h2⟩ := utf8_head x
    rw [h1, List.cons_append] at he
    have hb := (List.cons.inj he).1
    exact hx ((h2 (by rw [hb]; decide)).symm.trans hb)
  have key : c = d := by
    rcases code_cases P c with h1 | h1 | h1 | h1 | h1 | h1 | h1 | h1 | h1 <;>
    rcases code_cases P d with h2 | h2 | h2 | h2 | h2 | h2 | h2 | h2 | h2 <;>
    first
    | exact h1.1.trans h2.1.symm
    | (rw [h1.2, h2.2] at h; simp at h; done)
    | (rw [h1.2, h2] at h; simp at h; done)
    | (rw [h1, h2.2] at h; simp at h; done)
    | (rw [h1.2, h2.2.2.2.2] at h; exact absurd h.symm (raw _ _ _ h2.2.1))
    | (rw [h1, h2.2.2.2.2] at h; exact absurd h.symm (raw _ _ _ h2.2.1))
    | (rw [h1.2.2.2.2, h2.2] at h; exact absurd h (raw _ _ _ h1.2.1))
    | (rw [h1.2.2.2.2, h2] at h; exact absurd h (raw _ _ _ h1.2.1))
    | skip
    · have hB : Bytes (utf8 c ++ r) := fun x hx => (List.mem_append.mp hx).elim (utf8_bytes c x) (hr x)
      rw [h1.2.2.2.2, h2.2.2.2.2] at h
      have e1 := (firstChar_iff _ hB c).mpr ⟨_, rfl⟩
      have e2 := (firstChar_iff _ hB d).mpr ⟨_, h.symm⟩
      rw [e1] at e2
      exact Option.some.inj e2
    · rw [h1.2, h2.2] at h
      simp only [List.cons_append, List.cons.injEq, true_and] at h
      exact char_ext (hex_eq (by omega) (by omega) (by omega) h).1
    · rw [h1.2, h2.2] at h
      simp only [List.cons_append, List.cons.injEq, true_and] at h
      exact char_ext (hex_eq (by omega) (by omega) (by omega) h).1
    · rw [h1, h2] at h
      simp only [List.cons_append, List.cons.injEq, true_and] at h
      exact char_ext (hex_eq (by omega) (c32 _) (c32 _) h).1
  subst key
  exact ⟨rfl, List.append_cancel_left h⟩

/-- no quote begins the text of a character -/
theorem code_not_quote (P : Nat → Bool) (c : Char) (r s : Str) : code P c ++ r ≠ '"' :: s := by
  intro h
  rcases code_cases P c with h1 | h1 | h1 | h1 | h1 | h1 | h1 | h1 | h1
  case inr.inr.inr.inr.inr.inl =>
    rw [h1.2.2.2.2] at h
    obtain ⟨b, q, h2, h3⟩ := utf8_head c
    rw [h2, List.cons_append] at h
    have hb := (List.cons.inj h).1
    exact h1.1 ((h3 (by rw [hb]; decide)).symm.trans hb)
  all_goals first | (rw [h1.2] at h; simp at h; done) | (rw [h1] at h; simp at h; done)

theorem codes_bytes (P : Nat → Bool) (cs : List Char) : Bytes (cs.flatMap (code P) ++ ['"']) := by
  intro x hx
  rcases List.mem_append.mp hx with h | h
  · obtain ⟨c, _, h2⟩ := List.mem_flatMap.mp h
    exact code_bytes P c x h2
  · rw [List.mem_singleton.mp h]; decide

theorem codes_inj (P : Nat → Bool) : ∀ cs ds : List Char,
    cs.flatMap (code P) ++ ['"'] = ds.flatMap (code P) ++ ['"'] → cs = ds
  | [], [], _ => rfl
  | [], d :: ds, h => by
    rw [List.flatMap_cons, List.append_assoc] at h
    exact absurd h.symm (code_not_quote P d _ _)
  | c :: cs, [], h => by
    rw [List.flatMap_cons, List.append_assoc] at h
    exact absurd h (code_not_quote P c _ _)
  | c :: cs, d :: ds, h => by
    rw [List.flatMap_cons, List.flatMap_cons, List.append_assoc, List.append_assoc] at h
    obtain ⟨h1, h2⟩ := code_inj P c d _ _ (codes_bytes P cs) (codes_bytes P ds) h
    rw [h1, codes_inj P cs ds h2]

theorem escape_encode (P : Nat → Bool) (cs : List Char) : escape P (encode cs) = '"' :: (cs.flatMap (code P) ++ ['"']) := by
  unfold escape
  rw [pieces_encode, List.flatMap_map]
  rfl

/-- the characters of the text of a character are printable ASCII or bytes of the character itself -/
theorem code_printable (P : Nat → Bool) (c : Char) : ∀ b ∈ code P c, 32 ≤ b.toNat ∧ b.toNat ≠ 127 := by
  have hx : ∀ w n, ∀ b ∈ hex w n, 32 ≤ b.toNat ∧ b.toNat ≠ 127 := fun w n x h => by have := hex_bytes w n x h; omega
  have cons : ∀ (a b : Char) (r : Str), (32 ≤ a.toNat ∧ a.toNat ≠ 127) → (32 ≤ b.toNat ∧ b.toNat ≠ 127) →
      (∀ x ∈ r, 32 ≤ x.toNat ∧ x.toNat ≠ 127) → ∀ x ∈ a :: b :: r, 32 ≤ x.toNat ∧ x.toNat ≠ 127 := by
    intro a b r ha hb hr x hx
    simp only [List.mem_cons] at hx
    rcases hx with rfl | rfl | h
    · exact ha
    · exact hb
    · exact hr x h
  rcases code_cases P c with h | h | h | h | h | h | h | h | h
  · rw [h.2]; exact cons _ _ _ (by decide) (by decide) nofun
  · rw [h.2]; exact cons _ _ _ (by decide) (by decide) nofun
  · rw [h.2]; exact cons _ _ _ (by decide) (by decide) nofun
  · rw [h.2]; exact cons _ _ _ (by decide) (by decide) nofun
  · rw [h.2]; exact cons _ _ _ (by decide) (by decide) nofun
  · rw [h.2.2.2.2]
    intro x hx
    by_cases hc : c.toNat < 128
    · rw [utf8_small c hc, List.mem_singleton] at hx
      rw [hx]; exact ⟨h.2.2.1, h.2.2.2.1⟩
    · have := utf8_large c (by omega) x hx
      omega
  · rw [h.2]; exact cons _ _ _ (by decide) (by decide) (hx _ _)
  · rw [h.2]; exact cons _ _ _ (by decide) (by decide) (hx _ _)
  · rw [h]; exact cons _ _ _ (by decide) (by decide) (hx _ _)

/-- The byte a quoted byte stands for; a helper of the proof that quoting bytes is injective. -/
def unquote : Str → Nat
  | [_, a, _] => a.toNat
  | [_, _, 'n', _] => 10
  | [_, _, 'r', _] => 13
  | [_, _, 't', _] => 9
  | [_, _, a, _] => a.toNat
  | [_, _, _, a, b, _] => readNat 16 [a, b]
  | _ => 0

end Fmt
end Efp
