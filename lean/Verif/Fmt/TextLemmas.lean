import Verif.Fmt.Utf8
import Verif.Fmt.WriteLemmas

/-!
# The writers of texts, characters, booleans and pointers produce what the specification says
-/

namespace Efp
namespace Fmt

open Spec.Fmt (utf8 firstChar pieces piecesN Bytes visit columns pieceColumns join escapePiece escape escapeByte hex
  showStr showChar showBool showPtr pad wideRanges)
open Nat (toDigits)

/-! ## Pieces of a part of a text -/

theorem join_cons (p : Option Char × Str) (ps) : join (p :: ps) = p.2 ++ join ps := rfl

theorem join_append (ps qs) : join (ps ++ qs) = join ps ++ join qs := by
  unfold join; rw [List.map_append, List.flatten_append]

theorem join_pieces (s : Str) (h : Bytes s) : join (pieces s) = s := pieces_flatten s h

theorem bytes_drop {s : Str} (h : Bytes s) (k : Nat) : Bytes (s.drop k) := fun c hc => h c (List.mem_of_mem_drop hc)

theorem bytes_take {s : Str} (h : Bytes s) (k : Nat) : Bytes (s.take k) := fun c hc => h c (List.mem_of_mem_take hc)

/-- What follows a number of pieces has the remaining pieces. -/
theorem pieces_drop : ∀ (ps qs : List (Option Char × Str)) (s : Str), Bytes s → pieces s = ps ++ qs →
    pieces (s.drop (join ps).length) = qs ∧ s.take (join ps).length = join ps
  | [], qs, s, _, h => by
    refine ⟨?_, ?_⟩
    · rw [show (join []).length = 0 from rfl, List.drop_zero]; exact h
    · rw [show (join []).length = 0 from rfl, List.take_zero]; rfl
  | p :: ps, qs, [], _, h => by rw [pieces_nil] at h; simp at h
  | p :: ps, qs, b :: r, hB, h => by
    rw [pieces_cons, List.cons_append] at h
    obtain ⟨h1, h2⟩ := List.cons.inj h
    obtain ⟨g1, g2⟩ := pieces_drop ps qs _ (bytes_drop hB _) h2
    have hpre := firstPiece_prefix b r hB
    rw [h1] at hpre g1 g2
    obtain ⟨t, ht⟩ := hpre
    rw [← ht, List.drop_left] at g1 g2
    rw [← ht, join_cons, List.length_append]
    refine ⟨?_, ?_⟩
    · rw [List.drop_append, List.drop_eq_nil_of_le (by omega), List.nil_append,
        show p.2.length + (join ps).length - p.2.length = (join ps).length by omega]
      exact g1
    · rw [List.take_append]
      rw [List.take_of_length_le (by omega), show p.2.length + (join ps).length - p.2.length = (join ps).length by omega, g2]

theorem firstPiece_take (b : Char) (r : Str) (hB : Bytes (b :: r)) (k : Nat)
    (hk : (firstPiece b r).2.length ≤ k + 1) : firstPiece b (r.take k) = firstPiece b r := by
  have hB' : Bytes (b :: r.take k) := by
    intro c hc
    rcases List.mem_cons.mp hc with rfl | hc
    · exact hB _ (by simp)
    · exact hB _ (List.mem_cons_of_mem _ (List.mem_of_mem_take hc))
  have htake : b :: r.take k = (b :: r).take (k + 1) := rfl
  have hf : firstChar (b :: r.take k) = firstChar (b :: r) := by
    cases hc : firstChar (b :: r) with
    | none =>
      rw [firstChar_none_iff _ hB'] 
      intro c hp
      rw [htake] at hp
      exact (firstChar_none_iff _ hB).mp hc c (hp.trans (List.take_prefix _ _))
    | some c =>
      rw [firstChar_iff _ hB', htake]
      have hp := (firstChar_iff _ hB c).mp hc
      have hl : (utf8 c).length ≤ k + 1 := by unfold firstPiece at hk; rw [hc] at hk; exact hk
      refine List.prefix_of_prefix_length_le hp (List.take_prefix _ _) ?_
      rw [List.length_take]
      have := hp.length_le
      omega
  unfold firstPiece
  rw [hf]

/-- Cutting a text between two pieces leaves the pieces before the cut. -/
theorem pieces_take : ∀ (ps qs : List (Option Char × Str)) (s : Str), Bytes s → pieces s = ps ++ qs →
    pieces (join ps) = ps
  | [], qs, s, _, _ => rfl
  | p :: ps, qs, [], _, h => by rw [pieces_nil] at h; simp at h
  | p :: ps, qs, b :: r, hB, h => by
    have h0 := h
    rw [pieces_cons, List.cons_append] at h
    obtain ⟨h1, h2⟩ := List.cons.inj h
    have ih := pieces_take ps qs _ (bytes_drop hB _) h2
    have htk := (pieces_drop (p :: ps) qs (b :: r) hB h0).2
    have hpos := firstPiece_pos b r
    rw [h1] at hpos
    have hlen : (join (p :: ps)).length = p.2.length + (join ps).length := by rw [join_cons, List.length_append]
    obtain ⟨k, hk⟩ : ∃ k, (join (p :: ps)).length = k + 1 := ⟨(join (p :: ps)).length - 1, by omega⟩
    have hj : join (p :: ps) = b :: r.take k := by rw [← htk, hk]; rfl
    have hfp : firstPiece b (r.take k) = p := by
      rw [firstPiece_take b r hB k (by rw [h1]; omega), h1]
    rw [hj, pieces_cons, hfp, ← hj, join_cons, List.drop_left, ih]

/-- a piece is never empty -/
theorem pieces_pos (s : Str) : ∀ p ∈ pieces s, 0 < p.2.length := by
  generalize hn : s.length = n
  induction n using Nat.strongRecOn generalizing s with
  | ind n ih =>
    cases s with
    | nil => intro p hp; simp [pieces_nil] at hp
    | cons b r =>
      rw [pieces_cons]
      intro p hp
      have hpos := firstPiece_pos b r
      rcases List.mem_cons.mp hp with rfl | hp
      · exact hpos
      · exact ih _ (by rw [← hn, List.length_drop, List.length_cons]; omega) _ rfl p hp

theorem length_le_join : ∀ ps : List (Option Char × Str), (∀ p ∈ ps, 0 < p.2.length) → ps.length ≤ (join ps).length
  | [], _ => Nat.zero_le _
  | p :: ps, h => by
    have := length_le_join ps fun q hq => h q (List.mem_cons_of_mem _ hq)
    have := h p (by simp)
    rw [join_cons, List.length_append, List.length_cons]
    omega

theorem pieces_length_le (s : Str) (h : Bytes s) : (pieces s).length ≤ s.length := by
  conv => rhs; rw [← join_pieces s h]
  exact length_le_join _ (pieces_pos s)

/-! ## Width and precision -/

theorem isWide_eq (n : Nat) : isWide n = wideRanges.any fun r => decide (r.1 ≤ n) && decide (n ≤ r.2) := by
  rw [Bool.eq_iff_iff]
  simp only [isWide, wideRanges, List.any_cons, List.any_nil, Bool.or_eq_true, Bool.and_eq_true, decide_eq_true_eq,
    beq_iff_eq, bne_iff_ne, Bool.false_eq_true, or_false, ne_eq]
  omega

theorem visit_width : ∀ (ps : List (Option Char × Str)) (off n : Nat),
    visit invalidCodePoint (fun cp _ _ n => (true, n + (1 + if isWide cp then 1 else 0))) off ps n = n + columns ps
  | [], off, n => rfl
  | (c, t) :: ps, off, n => by
    simp only [visit, if_true]
    rw [visit_width ps]
    have : columns ((c, t) :: ps) = pieceColumns (c, t) + columns ps := rfl
    rw [this]
    cases c with
    | none =>
      have : isWide invalidCodePoint = false := by decide
      simp only [this, pieceColumns]
      simp; omega
    | some c =>
      simp only [pieceColumns, isWide_eq]
      split <;> omega

theorem computeWidth_eq (s : Str) (h : Bytes s) : computeWidth s = .ok (columns (pieces s)) := by
  unfold computeWidth
  rw [forEachCodepoint_eq _ s h, visit_width, Nat.zero_add]

theorem visit_index : ∀ (ps : List (Option Char × Str)) (off n r : Nat),
    (visit invalidCodePoint (fun _ off _ (s : Nat × Nat) =>
        if s.1 ≠ 0 then (true, (s.1 - 1, s.2)) else (false, (s.1, off))) off ps (n, r)).2
      = if n < ps.length then off + (join (ps.take n)).length else r
  | [], off, n, r => by simp [visit]
  | (c, t) :: ps, off, 0, r => by simp [visit, join]
  | (c, t) :: ps, off, n + 1, r => by
    have ih := visit_index ps (off + t.length) n r
    simp only [visit, ne_eq, Nat.add_one_ne_zero, not_false_iff, if_true, Nat.add_sub_cancel]
    refine ih.trans ?_
    simp only [List.length_cons, List.take_succ_cons, join_cons, List.length_append, Nat.add_lt_add_iff_right, Nat.add_assoc]

theorem codePointIndex_eq (s : Str) (h : Bytes s) (n : Nat) :
    codePointIndex s n = .ok (join ((pieces s).take n)).length := by
  unfold codePointIndex
  have e := forEachCodepoint_eq (fun _ off _ (s : Nat × Nat) =>
        if s.1 ≠ 0 then (true, (s.1 - 1, s.2)) else (false, (s.1, off))) s h (n, s.length)
  have e2 := visit_index (pieces s) 0 n s.length
  rw [show (fun (x1 x2 : Nat) (x3 : Str) (x : Nat × Nat) => match x1, x2, x3, x with
      | _, off, _, (n, r) => if n ≠ 0 then (true, (n - 1, r)) else (false, (n, off)))
    = (fun (_ off : Nat) (_ : Str) (s : Nat × Nat) =>
        if s.1 ≠ 0 then (true, (s.1 - 1, s.2)) else (false, (s.1, off))) from rfl, e, Res.bind_ok]
  generalize hv : visit invalidCodePoint _ _ _ _ = v at e2 ⊢
  obtain ⟨a, b⟩ := v
  simp only at e2 ⊢
  rw [e2]
  split
  · rw [Nat.zero_add]
  · rw [List.take_of_length_le (by omega), join_pieces s h]

/-! ## Escapes -/

/-- does a piece need an escape -/
def pieceEscaped (p : Option Char × Str) : Bool :=
  match p.1 with
  | some c => needsEscape c.toNat
  | none => true

theorem needsEscape_invalid : needsEscape invalidCodePoint = true := by decide

theorem cpOf_escaped (p : Option Char × Str) :
    needsEscape (match p.1 with | some c => c.toNat | none => invalidCodePoint) = pieceEscaped p := by
  obtain ⟨c, t⟩ := p
  cases c with
  | none => exact needsEscape_invalid
  | some c => rfl

theorem visit_escape : ∀ (ps : List (Option Char × Str)) (off : Nat),
    (∀ p ∈ ps, pieceEscaped p = false) ∧ visit invalidCodePoint (fun cp off piece r =>
        if needsEscape cp then (false, some (off, piece, cp)) else (true, r)) off ps none = none ∨
    ∃ pre p post, ps = pre ++ p :: post ∧ (∀ q ∈ pre, pieceEscaped q = false) ∧ pieceEscaped p = true ∧
      visit invalidCodePoint (fun cp off piece r =>
        if needsEscape cp then (false, some (off, piece, cp)) else (true, r)) off ps none
        = some (off + (join pre).length, p.2, match p.1 with | some c => c.toNat | none => invalidCodePoint)
  | [], off => Or.inl ⟨by simp, rfl⟩
  | p :: ps, off => by
    have hcp := cpOf_escaped p
    by_cases he : pieceEscaped p = true
    · right
      refine ⟨[], p, ps, rfl, by simp, he, ?_⟩
      rw [he] at hcp
      obtain ⟨c, t⟩ := p
      cases c <;> (simp only at hcp; simp only [visit, hcp, if_true, Bool.false_eq_true, if_false]; rfl)
    · have he' : pieceEscaped p = false := by simpa using he
      rw [he'] at hcp
      have hstep : visit invalidCodePoint (fun cp off piece r =>
          if needsEscape cp then (false, some (off, piece, cp)) else (true, r)) off (p :: ps) none
          = visit invalidCodePoint (fun cp off piece r =>
          if needsEscape cp then (false, some (off, piece, cp)) else (true, r)) (off + p.2.length) ps none := by
        obtain ⟨c, t⟩ := p
        cases c <;> (simp only at hcp; simp only [visit, hcp, Bool.false_eq_true, if_false, if_true])
      rw [hstep]
      rcases visit_escape ps (off + p.2.length) with ⟨h1, h2⟩ | ⟨pre, q, post, h1, h2, h3, h4⟩
      · left
        refine ⟨?_, h2⟩
        intro q hq
        rcases List.mem_cons.mp hq with rfl | hq
        · exact he'
        · exact h1 q hq
      · right
        refine ⟨p :: pre, q, post, by rw [h1]; rfl, ?_, h3, ?_⟩
        · intro q hq
          rcases List.mem_cons.mp hq with rfl | hq
          · exact he'
          · exact h2 q hq
        · rw [h4, join_cons, List.length_append, Nat.add_assoc]

theorem writeCodepoint_eq (w : Nat) (pre : Char) (n : Nat) (hw : 0 < w) (h : n < 16 ^ w) :
    writeCodepoint w pre n = .ok ('\\' :: pre :: hex w n) := by
  unfold writeCodepoint hex
  have hl : (toDigits 16 n).length ≤ w := (Nat.length_toDigits_le_iff (by omega) hw).mpr h
  rw [formatUintLoop_eq 4 false (by simp), show (2 : Nat) ^ 4 = 16 from rfl, if_pos hl, Res.bind_ok]
  simp only [upDigits, Bool.false_eq_true, if_false, List.append_nil]

theorem writeBytesEscaped_eq : ∀ t : Str, Bytes t →
    writeBytesEscaped t = .ok (t.flatMap fun b => '\\' :: 'x' :: hex 2 b.toNat)
  | [], _ => rfl
  | c :: r, h => by
    have hc := h c (by simp)
    unfold writeBytesEscaped
    rw [show c.toNat &&& 0xff = c.toNat by
      rw [show (0xff : Nat) = 2 ^ 8 - 1 from rfl, Nat.and_two_pow_sub_one_eq_mod]; omega]
    rw [writeCodepoint_eq 2 'x' _ (by omega) (by omega), Res.bind_ok,
      writeBytesEscaped_eq r (fun x hx => h x (List.mem_cons_of_mem _ hx)), Res.bind_ok]
    rfl

theorem char_eq_iff (c d : Char) : c.toNat = d.toNat ↔ c = d := ⟨char_ext, fun h => by rw [h]⟩

/-- the text of a piece that needs an escape -/
theorem writeEscapedCp_eq (p : Option Char × Str) (hB : Bytes p.2) (he : pieceEscaped p = true) (hq : p.1 ≠ some '\'') :
    writeEscapedCp (match p.1 with | some c => c.toNat | none => invalidCodePoint) p.2
      = .ok (escapePiece isPrintable p) := by
  obtain ⟨c, t⟩ := p
  cases c with
  | none =>
    have hi : ∀ n, n < 2 ^ 31 → invalidCodePoint ≠ n := by intro n hn h; unfold invalidCodePoint at h; omega
    have hj : ∀ n, n < 2 ^ 31 → ¬ invalidCodePoint < n := by intro n hn h; unfold invalidCodePoint at h; omega
    unfold writeEscapedCp
    simp only
    rw [if_neg (hi _ (by decide)), if_neg (hi _ (by decide)), if_neg (hi _ (by decide)),
      if_neg (by rintro (h | h | h) <;> exact hi _ (by decide) h), if_neg (hj _ (by decide)), if_neg (hj _ (by decide)),
      if_neg (hj _ (by decide))]
    exact writeBytesEscaped_eq t hB
  | some c =>
    have hc := toNat_lt c
    have hne : c ≠ '\'' := fun h => hq (by rw [h])
    unfold writeEscapedCp escapePiece
    simp only [char_eq_iff]
    by_cases h1 : c = '\n'
    · rw [if_pos h1, if_pos h1]
    rw [if_neg h1, if_neg h1]
    by_cases h2 : c = '\r'
    · rw [if_pos h2, if_pos h2]
    rw [if_neg h2, if_neg h2]
    by_cases h3 : c = '\t'
    · rw [if_pos h3, if_pos h3]
    rw [if_neg h3, if_neg h3]
    by_cases h4 : c = '"'
    · rw [if_pos (Or.inl h4), if_pos h4, h4]; rfl
    rw [if_neg h4]
    by_cases h5 : c = '\\'
    · rw [if_pos (Or.inr (Or.inr h5)), if_pos h5, h5]; rfl
    rw [if_neg (by rintro (h | h | h) <;> contradiction), if_neg h5]
    have hpr : ¬ (0x20 ≤ c.toNat ∧ c.toNat ≠ 0x7f ∧ isPrintable c.toNat = true) := by
      rintro ⟨g1, g2, g3⟩
      simp only [pieceEscaped, needsEscape, g3, Bool.not_true, Bool.or_false, Bool.or_eq_true, decide_eq_true_eq,
        beq_iff_eq, char_eq_iff, h4, h5, or_false] at he
      omega
    rw [if_neg hpr]
    by_cases g1 : c.toNat < 0x100
    · rw [if_pos g1, if_pos g1]; exact writeCodepoint_eq 2 'x' _ (by omega) (by omega)
    rw [if_neg g1, if_neg g1]
    by_cases g2 : c.toNat < 0x10000
    · rw [if_pos g2, if_pos g2]; exact writeCodepoint_eq 4 'u' _ (by omega) (by omega)
    rw [if_neg g2, if_neg g2, if_pos (by omega)]
    exact writeCodepoint_eq 8 'U' _ (by omega) (by omega)

/-- a piece that needs no escape is shown as it is -/
theorem escapePiece_plain (p : Option Char × Str) (he : pieceEscaped p = false) : escapePiece isPrintable p = p.2 := by
  obtain ⟨c, t⟩ := p
  cases c with
  | none => simp [pieceEscaped] at he
  | some c =>
    simp only [pieceEscaped, needsEscape, Bool.or_eq_false_iff, decide_eq_false_iff_not, beq_eq_false_iff_ne, ne_eq,
      Bool.not_eq_false', char_eq_iff] at he
    obtain ⟨⟨⟨⟨e1, e2⟩, e3⟩, e4⟩, e5⟩ := he
    unfold escapePiece
    simp only
    have n1 : c ≠ '\n' := by rintro rfl; exact e1 (by decide)
    have n2 : c ≠ '\r' := by rintro rfl; exact e1 (by decide)
    have n3 : c ≠ '\t' := by rintro rfl; exact e1 (by decide)
    rw [if_neg n1, if_neg n2, if_neg n3, if_neg e3, if_neg e4, if_pos ⟨by omega, e2, e5⟩]

theorem flatMap_plain : ∀ ps : List (Option Char × Str), (∀ p ∈ ps, pieceEscaped p = false) →
    ps.flatMap (escapePiece isPrintable) = join ps
  | [], _ => rfl
  | p :: ps, h => by
    rw [List.flatMap_cons, join_cons, escapePiece_plain p (h p (by simp)),
      flatMap_plain ps fun q hq => h q (List.mem_cons_of_mem _ hq)]

theorem pieces_bytes (s : Str) (h : Bytes s) : ∀ p ∈ pieces s, Bytes p.2 := by
  intro p hp c hc
  have hj := join_pieces s h
  apply h
  rw [← hj]
  exact List.mem_flatten.mpr ⟨p.2, List.mem_map.mpr ⟨p, hp, rfl⟩, hc⟩

theorem quote_plain (p : Option Char × Str) (he : pieceEscaped p = true) : p.1 ≠ some '\'' := by
  intro h
  obtain ⟨c, t⟩ := p
  simp only at h
  subst h
  exact absurd he (show ¬ needsEscape ('\''.toNat) = true by decide +kernel)

theorem escapedLoop_eq : ∀ (fuel : Nat) (s : Str), s.length < fuel → Bytes s →
    escapedLoop fuel s = .ok ((pieces s).flatMap (escapePiece isPrintable))
  | 0, _, h, _ => absurd h (Nat.not_lt_zero _)
  | fuel + 1, s, h, hB => by
    unfold escapedLoop findEscape
    rw [forEachCodepoint_eq _ s hB, Res.bind_ok]
    rcases visit_escape (pieces s) 0 with ⟨h1, h2⟩ | ⟨pre, p, post, h1, h2, h3, h4⟩
    · rw [h2, flatMap_plain _ h1, join_pieces s hB]
    · rw [h4]
      simp only [Nat.zero_add]
      have hpm : p ∈ pieces s := by rw [h1]; simp
      rw [writeEscapedCp_eq p (pieces_bytes s hB p hpm) h3 (quote_plain p h3), Res.bind_ok]
      obtain ⟨d1, d2⟩ := pieces_drop (pre ++ [p]) post s hB (by rw [h1]; simp)
      have hjl : (join (pre ++ [p])).length = (join pre).length + p.2.length := by
        rw [join_append, List.length_append]; simp [join]
      rw [hjl] at d1
      have htk := (pieces_drop pre (p :: post) s hB h1).2
      have hpos := pieces_pos s p hpm
      rw [htk, h1, List.flatMap_append, List.flatMap_cons, flatMap_plain pre h2]
      by_cases hnil : s.drop ((join pre).length + p.2.length) = []
      · rw [if_pos hnil]
        rw [hnil, pieces_nil] at d1
        rw [← d1]
        simp
      · rw [if_neg hnil]
        have hlen := congrArg List.length (join_pieces s hB)
        rw [h1, join_append, join_cons, List.length_append, List.length_append] at hlen
        rw [escapedLoop_eq fuel _ (by rw [List.length_drop]; omega) (bytes_drop hB _), Res.bind_ok, d1]
        simp

theorem writeEscapedString_eq (s : Str) (h : Bytes s) : writeEscapedString s = .ok (escape isPrintable s) := by
  unfold writeEscapedString escape
  rw [escapedLoop_eq _ s (Nat.lt_succ_self _) h, Res.bind_ok]

theorem writeEscapedChar_eq (c : Char) (h : c.toNat < 256) : writeEscapedChar c = .ok (escapeByte isPrintable c) := by
  have hall : ∀ n : Fin 256, writeEscapedChar (Char.ofNat n.val) = .ok (escapeByte isPrintable (Char.ofNat n.val)) := by
    decide +kernel
  have := hall ⟨c.toNat, h⟩
  simpa only [Char.ofNat_toNat] using this

/-! ## Writers -/

theorem writeStr_eq (s : Str) (sp : Specs) (h : Bytes s) (hw : sp.width < 2 ^ 31) :
    writeStr s sp = .ok (showStr isPrintable s sp) := by
  have hpl := pieces_length_le s h
  have hsize : strSize s sp = .ok (join (if 0 ≤ sp.precision then (pieces s).take sp.precision.toNat else pieces s)).length := by
    unfold strSize
    by_cases h0 : 0 ≤ sp.precision
    · by_cases h1 : sp.precision.toNat < s.length
      · rw [if_pos ⟨h0, h1⟩, if_pos h0, codePointIndex_eq s h]
      · rw [if_neg (by omega), if_pos h0, List.take_of_length_le (by omega), join_pieces s h]
    · rw [if_neg (by omega), if_neg h0, join_pieces s h]
  obtain ⟨kept, rest, hk, hkr⟩ : ∃ kept rest, (if 0 ≤ sp.precision then (pieces s).take sp.precision.toNat
      else pieces s) = kept ∧ pieces s = kept ++ rest := by
    by_cases h0 : 0 ≤ sp.precision
    · exact ⟨_, _, if_pos h0, (List.take_append_drop _ _).symm⟩
    · exact ⟨_, [], if_neg h0, (List.append_nil _).symm⟩
  have htk := (pieces_drop kept rest s h hkr).2
  have hpk := pieces_take kept rest s h hkr
  have hBk : Bytes (join kept) := by rw [← htk]; exact bytes_take h _
  unfold writeStr showStr strWidth strBody
  rw [hsize, hk, Res.bind_ok, htk]
  by_cases hd : sp.type = .debug
  · simp only [hd, if_true, writeEscapedString_eq s h, Res.bind_ok]
    by_cases hw0 : sp.width = 0
    · rw [if_neg (by omega), Res.bind_ok, writePadded_eq _ _ _ _ hw, pad_of_le _ _ _ _ (by omega),
        pad_of_le _ _ _ _ (by omega)]
    · rw [if_pos hw0, Res.bind_ok, writePadded_eq _ _ _ _ hw]
  · simp only [hd, if_false]
    by_cases hw0 : sp.width = 0
    · rw [if_neg (by omega), Res.bind_ok, Res.bind_ok, writePadded_eq _ _ _ _ hw, pad_of_le _ _ _ _ (by omega),
        pad_of_le _ _ _ _ (by omega)]
    · rw [if_pos hw0, computeWidth_eq _ hBk, hpk, Res.bind_ok, Res.bind_ok, writePadded_eq _ _ _ _ hw]

theorem writeIntDefault_eq {w : Nat} {v : Int} (hw : w = 32 ∨ w = 64 ∨ w = 128) (h1 : -(2 ^ (w - 1) : Nat) ≤ v)
    (h2 : v < (2 ^ w : Nat)) : writeIntDefault w v = .ok (Spec.Fmt.showIntDefault v) := by
  have habs : (if v < 0 then (2 ^ w - 1 - (v % 2 ^ w).toNat + 1) % 2 ^ w else (v % 2 ^ w).toNat) = v.natAbs
      ∧ v.natAbs < 2 ^ w := by
    have hcast : ((2 ^ w : Nat) : Int) = 2 ^ w := by norm_cast
    rcases hw with rfl | rfl | rfl <;> (split <;> omega)
  unfold writeIntDefault Spec.Fmt.showIntDefault
  simp only [habs.1]
  rw [countDigits_eq hw habs.2, Res.bind_ok, formatDecimal_eq hw habs.2, Res.bind_ok]

theorem writePtr_eq (addr : Nat) (sp : Specs) (h : addr < 2 ^ 64) (hw : sp.width < 2 ^ 31) :
    writePtr addr sp = .ok (showPtr addr sp) := by
  unfold writePtr showPtr
  rw [countDigitsBits_eq (by omega) (by omega) h, Res.bind_ok, formatUint_eq false (by simp) h, Res.bind_ok,
    writePadded_eq _ _ _ _ hw]
  simp only [upDigits, Bool.false_eq_true, if_false, show (2 : Nat) ^ 4 = 16 from rfl]
  rw [Nat.add_comm]

theorem writeBool_eq (v : Bool) (sp : Specs) (hp : sp.precision = -1) (hw : sp.width < 2 ^ 31) :
    writeBool v sp = match showBool v sp with
      | some t => .ok t
      | none => .err "invalid format specifier" := by
  unfold writeBool showBool
  by_cases h : sp.type = .none ∨ sp.type = .string
  · rw [if_pos h, if_neg (by rintro ⟨h1, h2⟩; rcases h with h | h <;> contradiction)]
    simp only
    rw [writePadded_eq _ _ _ _ hw]
    cases v <;> rfl
  · rw [if_neg h, if_pos ⟨fun h1 => h (Or.inl h1), fun h1 => h (Or.inr h1)⟩]
    exact writeInt_eq sp (Or.inl rfl) (by cases v <;> decide) (by cases v <;> decide) hp hw

theorem writeCharSpecs_eq (c : Char) (sp : Specs) (hc : c.toNat < 256) (hp : sp.precision = -1)
    (hw : sp.width < 2 ^ 31) :
    ∃ m, writeCharSpecs c sp = match showChar isPrintable c sp with
      | some t => .ok t
      | none => .err m := by
  unfold writeCharSpecs showChar checkCharSpecs
  by_cases h : sp.type = .none ∨ sp.type = .chr ∨ sp.type = .debug
  · rw [if_pos h, if_neg (by rintro ⟨h1, h2, h3⟩; rcases h with h | h | h <;> contradiction)]
    by_cases h2 : sp.align = .numeric ∨ sp.sign ≠ .none ∨ sp.alt = true
    · rw [if_pos h2, if_pos h2]
      exact ⟨_, rfl⟩
    · rw [if_neg h2, if_neg h2]
      refine ⟨"", ?_⟩
      simp only [Res.bind_ok, if_true, writeChar]
      by_cases hd : sp.type = .debug
      · simp only [hd, if_true, writeEscapedChar_eq c hc, Res.bind_ok, writePadded_eq _ _ _ _ hw]
      · simp only [hd, if_false, Res.bind_ok, writePadded_eq _ _ _ _ hw]
  · rw [if_neg h, if_pos ⟨fun h1 => h (Or.inl h1), fun h1 => h (Or.inr (Or.inl h1)), fun h1 => h (Or.inr (Or.inr h1))⟩]
    refine ⟨"invalid format specifier", ?_⟩
    simp only [Res.bind_ok, Bool.false_eq_true, if_false]
    exact writeInt_eq sp (Or.inl rfl) (by omega) (by omega) hp hw

end Fmt
end Efp
