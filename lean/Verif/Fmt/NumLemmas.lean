import Verif.Spec.FmtGrammar
import Verif.Fmt.ParseLemmas

/-!
# Numbers, names and argument references in a format string
-/

namespace Efp
namespace Fmt

open Spec.Fmt (Ref Num decimal)
open Nat (toDigits ofDigitChars)

theorem isDigit_iff (c : Char) : isDigit c = true ↔ 48 ≤ c.toNat ∧ c.toNat ≤ 57 := by
  simp [isDigit]

theorem isDigit_eq (c : Char) : isDigit c = c.isDigit := by
  rw [Bool.eq_iff_iff, isDigit_iff]
  simp only [Char.isDigit, Bool.and_eq_true, decide_eq_true_eq, ge_iff_le, UInt32.le_iff_toNat_le]
  exact Iff.rfl

theorem isNameStart_iff (c : Char) : isNameStart c = true ↔ c.isAlpha = true ∨ c = '_' := by
  simp only [isNameStart, Bool.or_eq_true, Bool.and_eq_true, decide_eq_true_eq, beq_iff_eq, Char.isAlpha, Char.isUpper,
    Char.isLower, ge_iff_le, UInt32.le_iff_toNat_le]
  have e : c.val.toNat = c.toNat := rfl
  simp only [e, show ('a' : Char).val.toNat = 97 from rfl, show ('z' : Char).val.toNat = 122 from rfl,
    show ('A' : Char).val.toNat = 65 from rfl, show ('Z' : Char).val.toNat = 90 from rfl]
  apply or_congr_left
  omega

theorem nameChar_iff (c : Char) : (isNameStart c || isDigit c) = true ↔ c.isAlphanum = true ∨ c = '_' := by
  rw [Bool.or_eq_true, isNameStart_iff, isDigit_eq]
  simp only [Char.isAlphanum, Bool.or_eq_true]
  exact or_right_comm

/-- text that begins with no digit -/
def Stops (p : Str) : Prop := ∀ c r, p = c :: r → isDigit c = false

theorem digits_split : ∀ r : Str, ∃ ds p, r = ds ++ p ∧ (∀ c ∈ ds, isDigit c = true) ∧ Stops p
  | [] => ⟨[], [], rfl, by simp, by intro c r h; cases h⟩
  | c :: r => by
    by_cases hc : isDigit c = true
    · obtain ⟨ds, p, h1, h2, h3⟩ := digits_split r
      refine ⟨c :: ds, p, by rw [h1]; rfl, ?_, h3⟩
      intro d hd
      rcases List.mem_cons.mp hd with rfl | hd
      · exact hc
      · exact h2 d hd
    · refine ⟨[], c :: r, rfl, by simp, ?_⟩
      intro d s h
      obtain ⟨rfl, rfl⟩ := List.cons.inj h
      simpa using hc

theorem ofDigitChars_mod (ds : Str) : ∀ v : Nat, ofDigitChars 10 ds (v % 2 ^ 32) % 2 ^ 32 = ofDigitChars 10 ds v % 2 ^ 32 := by
  induction ds with
  | nil => intro v; simp
  | cons c ds ih =>
    intro v
    rw [Nat.ofDigitChars_cons, Nat.ofDigitChars_cons, ← ih, ← ih (10 * v + _)]
    congr 2
    omega

theorem pniLoop_eq : ∀ (ds : Str) (c : Char) (p : Str) (v n : Nat), isDigit c = true → (∀ d ∈ ds, isDigit d = true) →
    Stops p → ∃ prev last, pniLoop c (ds ++ p) v n = (ofDigitChars 10 (c :: ds) v % 2 ^ 32, prev, n + 1 + ds.length, last, p)
      ∧ (v < 10 ^ n → n + ds.length ≤ 9 → prev * 10 + (last.toNat - 48) = ofDigitChars 10 (c :: ds) v
        ∧ ofDigitChars 10 (c :: ds) v < 10 ^ (n + 1 + ds.length))
  | [], c, p, v, n, hc, _, hp => by
    rw [isDigit_iff] at hc
    refine ⟨v, c, ?_, ?_⟩
    · cases p with
      | nil =>
        simp only [List.append_nil, pniLoop, Nat.ofDigitChars_cons, Nat.ofDigitChars_nil, List.length_nil, Nat.add_zero,
          Nat.mul_comm]
        rfl
      | cons d r =>
        have := hp d r rfl
        simp only [List.nil_append, pniLoop, this, Bool.false_eq_true, if_false, Nat.ofDigitChars_cons,
          Nat.ofDigitChars_nil, List.length_nil, Nat.add_zero, Nat.mul_comm]
        rfl
    · intro hv hn
      have e : ('0' : Char).toNat = 48 := rfl
      simp only [Nat.ofDigitChars_cons, Nat.ofDigitChars_nil, List.length_nil, Nat.add_zero, e, Nat.pow_succ]
      omega
  | d :: ds, c, p, v, n, hc, hd, hp => by
    have hdd := hd d (by simp)
    obtain ⟨prev, last, h1, h2⟩ := pniLoop_eq ds d p ((v * 10 + (c.toNat - 48)) % 2 ^ 32) (n + 1) hdd
      (fun x hx => hd x (List.mem_cons_of_mem _ hx)) hp
    rw [isDigit_iff] at hc
    have e : ('0' : Char).toNat = 48 := rfl
    refine ⟨prev, last, ?_, ?_⟩
    · rw [List.cons_append]
      simp only [pniLoop, hdd, if_true]
      rw [h1, ofDigitChars_mod, Nat.ofDigitChars_cons (cs := d :: ds), e, Nat.mul_comm 10 v, List.length_cons]
      congr 3
      omega
    · intro hv hn
      rw [List.length_cons] at hn
      have h10 : (10 : Nat) ^ (n + 1) ≤ 10 ^ 9 := Nat.pow_le_pow_right (by omega) (by omega)
      have hv' : v * 10 + (c.toNat - 48) < 10 ^ (n + 1) := by rw [Nat.pow_succ]; omega
      have hmod : (v * 10 + (c.toNat - 48)) % 2 ^ 32 = v * 10 + (c.toNat - 48) := Nat.mod_eq_of_lt (by omega)
      rw [hmod] at h2
      rw [Nat.ofDigitChars_cons (cs := d :: ds), e, Nat.mul_comm 10 v, List.length_cons,
        show n + 1 + (ds.length + 1) = n + 1 + 1 + ds.length by omega]
      exact h2 hv' (by omega)

/-- A row of digits is read as its value, if it has at most ten digits and is at most `INT_MAX`. -/
theorem parseNonnegativeInt_eq (c : Char) (ds p : Str) (e : Int) (hc : isDigit c = true)
    (hd : ∀ d ∈ ds, isDigit d = true) (hp : Stops p) :
    parseNonnegativeInt (c :: (ds ++ p)) e =
      .ok (if (c :: ds).length ≤ 10 ∧ decimal (c :: ds) ≤ 2147483647 then (decimal (c :: ds) : Int) else e, p) := by
  obtain ⟨prev, last, h1, h2⟩ := pniLoop_eq ds c p 0 0 hc hd hp
  simp only [parseNonnegativeInt, h1, List.length_cons]
  rw [show ofDigitChars 10 (c :: ds) 0 = decimal (c :: ds) from rfl] at h2 ⊢
  by_cases hl : ds.length ≤ 9
  · obtain ⟨h3, h4⟩ := h2 (by decide) (by omega)
    by_cases h9 : 0 + 1 + ds.length ≤ 9
    · have : (10 : Nat) ^ (0 + 1 + ds.length) ≤ 10 ^ 9 := Nat.pow_le_pow_right (by omega) h9
      rw [if_pos h9, if_pos (by omega), Nat.mod_eq_of_lt (by omega)]
    · rw [if_neg h9, h3]
      by_cases hm : decimal (c :: ds) ≤ 2147483647
      · rw [if_pos (by omega), if_pos (by omega), Nat.mod_eq_of_lt (by omega)]
      · rw [if_neg (by omega), if_neg (by omega)]
  · rw [if_neg (by omega), if_neg (by omega), if_neg (by omega)]

/-! ## Decimal numbers without leading zeros -/

theorem toDigits_digits (n : Nat) : ∀ c ∈ toDigits 10 n, isDigit c = true := by
  induction n using Nat.strongRecOn with
  | ind n ih =>
    by_cases h : n < 10
    · rw [Nat.toDigits_of_lt_base h]
      intro c hc
      rw [List.mem_singleton.mp hc, digitChar_ten n h, isDigit_iff, toNat_ofNat _ (by omega)]
      omega
    · rw [Nat.toDigits_of_base_le (by omega) (by omega)]
      intro c hc
      rcases List.mem_append.mp hc with hc | hc
      · exact ih _ (by omega) c hc
      · rw [List.mem_singleton.mp hc, digitChar_ten _ (by omega), isDigit_iff, toNat_ofNat _ (by omega)]
        omega

theorem toDigits_head (n : Nat) (hn : 0 < n) : ∃ c r, toDigits 10 n = c :: r ∧ c ≠ '0' := by
  induction n using Nat.strongRecOn with
  | ind n ih =>
    by_cases h : n < 10
    · refine ⟨_, [], Nat.toDigits_of_lt_base h, ?_⟩
      rw [digitChar_ten n h]
      intro e
      have := congrArg Char.toNat e
      rw [toNat_ofNat _ (by omega)] at this
      have e0 : ('0' : Char).toNat = 48 := rfl
      omega
    · obtain ⟨c, r, h1, h2⟩ := ih (n / 10) (by omega) (by omega)
      rw [Nat.toDigits_of_base_le (by omega) (by omega), h1]
      exact ⟨c, _, rfl, h2⟩

theorem digit_back (c : Char) (hc : isDigit c = true) : Nat.digitChar (c.toNat - 48) = c := by
  rw [isDigit_iff] at hc
  rw [digitChar_ten _ (by omega)]
  apply char_ext
  rw [toNat_ofNat _ (by omega)]
  omega

theorem toDigits_decimal : ∀ (k : Nat) (ds : Str) (c : Char), ds.length = k → isDigit c = true → c ≠ '0' →
    (∀ d ∈ ds, isDigit d = true) → toDigits 10 (decimal (c :: ds)) = c :: ds ∧ 0 < decimal (c :: ds)
  | 0, ds, c, hk, hc, h0, _ => by
    have hds : ds = [] := List.length_eq_zero_iff.mp hk
    have hb := digit_back c hc
    have e : ('0' : Char).toNat = 48 := rfl
    have hne : c.toNat ≠ 48 := fun h => h0 (char_ext (h.trans e.symm))
    rw [isDigit_iff] at hc
    have hv : decimal [c] = c.toNat - 48 := by
      simp only [decimal, Nat.ofDigitChars_cons, Nat.ofDigitChars_nil, e]
      omega
    rw [hds, hv, Nat.toDigits_of_lt_base (by omega), hb]
    exact ⟨rfl, by omega⟩
  | k + 1, ds, c, hk, hc, h0, hd => by
    have hne : ds ≠ [] := by intro h; rw [h] at hk; simp at hk
    obtain ⟨ds', d, rfl⟩ : ∃ ds' d, ds = ds' ++ [d] := ⟨_, _, (List.dropLast_concat_getLast hne).symm⟩
    have hdd := hd d (by simp)
    obtain ⟨ih1, ih2⟩ := toDigits_decimal k ds' c (by simpa using hk) hc h0
      (fun x hx => hd x (List.mem_append.mpr (Or.inl hx)))
    have e : ('0' : Char).toNat = 48 := rfl
    have hv : decimal (c :: (ds' ++ [d])) = 10 * decimal (c :: ds') + (d.toNat - 48) := by
      rw [← List.cons_append]
      simp only [decimal]
      rw [Nat.ofDigitChars_append]
      simp only [Nat.ofDigitChars_cons (cs := []), Nat.ofDigitChars_nil, e]
    have hb := digit_back d hdd
    rw [isDigit_iff] at hdd
    rw [hv]
    refine ⟨?_, by omega⟩
    rw [Nat.toDigits_of_base_le (by omega) (by omega), show (10 * decimal (c :: ds') + (d.toNat - 48)) / 10 = decimal (c :: ds') by omega,
      show (10 * decimal (c :: ds') + (d.toNat - 48)) % 10 = d.toNat - 48 by omega, ih1, hb]
    rfl

theorem decimal_toDigits (n : Nat) : decimal (toDigits 10 n) = n := Nat.ofDigitChars_ten_toDigits

theorem toDigits_length_le (n : Nat) (h : n ≤ 2147483647) : (toDigits 10 n).length ≤ 10 :=
  (Nat.length_toDigits_le_iff (by omega) (by omega)).mpr (by omega)

/-! ## Argument references -/

/-- what the parser reports for a reference: numbers above `INT_MAX` become `INT_MAX` -/
def aidOf : Ref → ArgId
  | .auto => .auto
  | .index n => .index (if n ≤ 2147483647 then n else 2147483647)
  | .name s => .name s

theorem stops_brace (x : Char) (b : Str) (hx : x = '}' ∨ x = ':') : Stops (x :: b) := by
  intro c r h
  obtain ⟨rfl, rfl⟩ := List.cons.inj h
  rcases hx with rfl | rfl <;> decide

theorem nameTail_eq : ∀ (r : Str) (x : Char) (b : Str), (∀ d ∈ r, d.isAlphanum = true ∨ d = '_') → (x = '}' ∨ x = ':') →
    nameTail (r ++ x :: b) = (r, x :: b)
  | [], x, b, _, hx => by
    rw [List.nil_append, nameTail]
    rw [if_neg]
    rcases hx with rfl | rfl <;> decide
  | c :: r, x, b, h, hx => by
    rw [List.cons_append, nameTail, if_pos ((nameChar_iff c).mpr (h c (by simp))),
      nameTail_eq r x b (fun d hd => h d (List.mem_cons_of_mem _ hd)) hx]

theorem nameTail_split : ∀ r : Str, r = (nameTail r).1 ++ (nameTail r).2 ∧
    ∀ d ∈ (nameTail r).1, d.isAlphanum = true ∨ d = '_'
  | [] => ⟨rfl, by simp [nameTail]⟩
  | c :: r => by
    obtain ⟨h1, h2⟩ := nameTail_split r
    unfold nameTail
    split
    · rename_i hc
      refine ⟨?_, ?_⟩
      · simp only [List.cons_append]; rw [← h1]
      · intro d hd
        rcases List.mem_cons.mp hd with rfl | hd
        · exact (nameChar_iff d).mp hc
        · exact h2 d hd
    · exact ⟨rfl, by simp⟩

theorem parseIndex_text (n : Nat) (x : Char) (b : Str) (hx : x = '}' ∨ x = ':') :
    ∃ c r, toDigits 10 n ++ x :: b = c :: r ∧ isDigit c = true ∧
      parseIndex c r = .ok (((if n ≤ 2147483647 then n else 2147483647 : Nat) : Int), x :: b) := by
  by_cases h0 : n = 0
  · refine ⟨'0', x :: b, by rw [h0]; rfl, by decide, ?_⟩
    rw [parseIndex, if_neg (by simp), h0]
    rfl
  · obtain ⟨c, r, h1, h2⟩ := toDigits_head n (by omega)
    have hall := toDigits_digits n
    have hv := decimal_toDigits n
    have hlen := toDigits_length_le n
    rw [h1] at hall hv hlen
    refine ⟨c, r ++ x :: b, by rw [h1]; rfl, hall c (by simp), ?_⟩
    rw [parseIndex, if_pos h2, parseNonnegativeInt_eq c r (x :: b) _ (hall c (by simp))
      (fun d hd => hall d (List.mem_cons_of_mem _ hd)) (stops_brace x b hx), hv]
    by_cases hn : n ≤ 2147483647
    · rw [if_pos ⟨hlen hn, hn⟩, if_pos hn]
    · rw [if_neg (fun h => hn h.2), if_neg hn]; rfl

/-- A written reference is read back. -/
theorem parseArgId_text (r : Ref) (x : Char) (b : Str) (hv : r.Valid) (hx : x = '}' ∨ x = ':') :
    parseArgId (r.text ++ x :: b) = .ok (aidOf r, x :: b) := by
  cases r with
  | auto =>
    simp only [Ref.text, List.nil_append, parseArgId]
    rw [if_neg (by rcases hx with rfl | rfl <;> simp)]
    rfl
  | index n =>
    obtain ⟨c, r, h1, h2, h3⟩ := parseIndex_text n x b hx
    have hne : c ≠ '}' ∧ c ≠ ':' := by
      rw [isDigit_iff] at h2
      constructor <;> (rintro rfl; revert h2; decide)
    simp only [Ref.text, h1, parseArgId]
    rw [if_pos hne]
    simp only [doParseArgId]
    rw [if_pos h2, h3, Res.bind_ok]
    simp only
    rw [if_neg (by rcases hx with rfl | rfl <;> simp)]
    simp only [aidOf, Int.toNat_natCast]
  | name s =>
    obtain ⟨c, r, rfl, hc, hr⟩ := hv
    have hc' := (isNameStart_iff c).mpr hc
    have hnd : isDigit c = false := by
      cases hd : isDigit c with
      | false => rfl
      | true =>
        rw [isDigit_iff] at hd
        simp only [isNameStart, Bool.or_eq_true, Bool.and_eq_true, decide_eq_true_eq, beq_iff_eq] at hc'
        rcases hc' with hc' | rfl
        · omega
        · exact absurd hd (by decide)
    have hne : c ≠ '}' ∧ c ≠ ':' := by
      constructor <;> (rintro rfl; revert hc'; decide)
    simp only [Ref.text, List.cons_append, parseArgId]
    rw [if_pos hne]
    simp only [doParseArgId, hnd, hc', Bool.false_eq_true, if_false, Bool.not_true, nameTail_eq r x b hr hx]
    rfl

/-- What is read is a written reference. -/
theorem parseArgId_sound {s : Str} {id : ArgId} {x : Char} {b : Str} (hx : x = '}' ∨ x = ':')
    (h : parseArgId s = .ok (id, x :: b)) : ∃ r : Ref, r.Valid ∧ s = r.text ++ x :: b ∧ id = aidOf r := by
  cases s with
  | nil => simp [parseArgId] at h
  | cons c s =>
    simp only [parseArgId] at h
    split at h
    · simp only [doParseArgId] at h
      split at h
      · rename_i hd
        obtain ⟨⟨i, q⟩, h1, h2⟩ := Res.bind_eq_ok.mp h
        simp only at h2
        cases q with
        | nil => simp at h2
        | cons y q =>
          simp only at h2
          split at h2
          · simp at h2
          · simp only [Res.ok.injEq, Prod.mk.injEq] at h2
            obtain ⟨h2, h3⟩ := h2
            by_cases h0 : c = '0'
            · rw [parseIndex, if_neg (by simpa using h0)] at h1
              simp only [Res.ok.injEq, Prod.mk.injEq] at h1
              refine ⟨.index 0, trivial, ?_, ?_⟩
              · rw [h0, h1.2, h3]; rfl
              · rw [← h2, ← h1.1]; rfl
            · rw [parseIndex, if_pos h0] at h1
              obtain ⟨ds, p, rfl, hds, hp⟩ := digits_split s
              rw [parseNonnegativeInt_eq c ds p _ hd hds hp] at h1
              simp only [Res.ok.injEq, Prod.mk.injEq] at h1
              obtain ⟨ht, hpos⟩ := toDigits_decimal _ ds c rfl hd h0 hds
              refine ⟨.index (decimal (c :: ds)), trivial, ?_, ?_⟩
              · rw [Ref.text, ht, h1.2, h3]; rfl
              · rw [← h2, ← h1.1, aidOf]
                congr 1
                have hl := toDigits_length_le (decimal (c :: ds))
                rw [ht] at hl
                by_cases hm : decimal (c :: ds) ≤ 2147483647
                · rw [if_pos ⟨hl hm, hm⟩, if_pos hm]; rfl
                · rw [if_neg (fun h => hm h.2), if_neg hm]; rfl
      · split at h
        · simp at h
        · rename_i hd hn
          simp only [Res.ok.injEq, Prod.mk.injEq] at h
          obtain ⟨h1, h2⟩ := nameTail_split s
          have hc : isNameStart c = true := by simpa using hn
          refine ⟨.name (c :: (nameTail s).1), ⟨c, _, rfl, (isNameStart_iff c).mp hc, h2⟩, ?_, ?_⟩
          · rw [Ref.text, List.cons_append, ← h.2, ← h1]
          · rw [← h.1]; rfl
    · simp only [Res.ok.injEq, Prod.mk.injEq] at h
      exact ⟨.auto, trivial, h.2, h.1.symm⟩

/-! ## Widths and precisions -/

/-- the reference the parser keeps for an argument, and the new counter -/
def refOf : Ref → Int → Option (ArgRef × Int)
  | .auto, n => if n < 0 then none else some (.index n.toNat, n + 1)
  | .index i, n => if 0 < n then none else some (.index (if i ≤ 2147483647 then i else 2147483647), -1)
  | .name s, n => some (.name s, n)

theorem dynamicSpecId_eq (r : Ref) (n : Int) : Agrees (dynamicSpecId (aidOf r) n) (refOf r n) := by
  cases r with
  | auto =>
    simp only [aidOf, dynamicSpecId, nextArgId, refOf]
    by_cases h : n < 0
    · rw [if_pos h, if_pos h]; exact ⟨_, rfl⟩
    · rw [if_neg h, if_neg h]; rfl
  | index i =>
    simp only [aidOf, dynamicSpecId, checkArgId, refOf]
    by_cases h : n > 0
    · rw [if_pos h, if_pos h]; exact ⟨_, rfl⟩
    · rw [if_neg h, if_neg h]; rfl
  | name s => rfl

/-- what the parser makes of a width or precision -/
def numParse (q : Num) (v : Int) (ref : ArgRef) (n : Int) : Option (Int × ArgRef × Int) :=
  match q with
  | .none => some (v, ref, n)
  | .lit d => some (decimal d, ref, n)
  | .arg r => (refOf r n).map fun (ref, n) => (v, ref, n)

theorem parseDynamicSpec_text (q : Num) (p : Str) (v : Int) (ref : ArgRef) (n : Int) (hq : q.Valid) (hp : Stops p)
    (hne : p ≠ []) (hnone : q = .none → ∀ c r, p = c :: r → c ≠ '{') {v' ref' n'}
    (h : numParse q v ref n = some (v', ref', n')) :
    parseDynamicSpec (q.text ++ p) v ref n = .ok (v', ref', p, n') := by
  cases q with
  | none =>
    simp only [numParse, Option.some.injEq, Prod.mk.injEq] at h
    obtain ⟨rfl, rfl, rfl⟩ := h
    cases p with
    | nil => exact absurd rfl hne
    | cons c r =>
      simp only [Num.text, List.nil_append, parseDynamicSpec, hp c r rfl, Bool.false_eq_true, if_false,
        hnone rfl c r rfl]
  | lit d =>
    simp only [numParse, Option.some.injEq, Prod.mk.injEq] at h
    obtain ⟨rfl, rfl, rfl⟩ := h
    obtain ⟨h1, h2, h3, h4⟩ := hq
    cases d with
    | nil => exact absurd rfl h1
    | cons c ds =>
      have hd : ∀ x ∈ c :: ds, isDigit x = true := fun x hx => by rw [isDigit_eq]; exact h2 x hx
      simp only [Num.text, List.cons_append, parseDynamicSpec, hd c (by simp), if_true]
      rw [parseNonnegativeInt_eq c ds p _ (hd c (by simp)) (fun x hx => hd x (List.mem_cons_of_mem _ hx)) hp,
        if_pos ⟨h3, h4⟩, Res.bind_ok]
      simp only
      rw [if_pos (by omega)]
  | arg r =>
    simp only [numParse, Option.map_eq_some_iff] at h
    obtain ⟨⟨rf, nn⟩, h1, h2⟩ := h
    simp only [Prod.mk.injEq] at h2
    obtain ⟨rfl, rfl, rfl⟩ := h2
    have hid := parseArgId_text r '}' p hq (Or.inl rfl)
    have hdyn := dynamicSpecId_eq r n
    rw [h1] at hdyn
    simp only [Agrees] at hdyn
    have htext : (Num.arg r).text ++ p = '{' :: (r.text ++ '}' :: p) := by simp [Num.text]
    rw [htext]
    generalize r.text ++ '}' :: p = t at hid
    cases t with
    | nil => simp [parseArgId] at hid
    | cons c t =>
      simp only [parseDynamicSpec, show isDigit '{' = false from rfl, Bool.false_eq_true, if_false, if_true]
      rw [hid, Res.bind_ok]
      simp only
      rw [hdyn, Res.bind_ok]
      simp

theorem parseDynamicSpec_sound {s : Str} {v : Int} {ref : ArgRef} {n : Int} {v' : Int} {ref' : ArgRef} {p : Str} {n' : Int}
    (h : parseDynamicSpec s v ref n = .ok (v', ref', p, n')) : ∃ q : Num, q.Valid ∧ s = q.text ++ p ∧
      numParse q v ref n = some (v', ref', n') ∧
      (q = .none → ∀ c r, s = c :: r → (isDigit c || c == '{') = false) := by
  cases s with
  | nil => simp [parseDynamicSpec] at h
  | cons c r =>
    simp only [parseDynamicSpec] at h
    by_cases hd : isDigit c = true
    · rw [if_pos hd] at h
      obtain ⟨⟨i, q⟩, h1, h2⟩ := Res.bind_eq_ok.mp h
      obtain ⟨ds, p0, rfl, hds, hp0⟩ := digits_split r
      rw [parseNonnegativeInt_eq c ds p0 _ hd hds hp0] at h1
      simp only [Res.ok.injEq, Prod.mk.injEq] at h1
      simp only at h2
      split at h2
      · rename_i hi
        simp only [Res.ok.injEq, Prod.mk.injEq] at h2
        obtain ⟨rfl, rfl, rfl, rfl⟩ := h2
        by_cases hb : (c :: ds).length ≤ 10 ∧ decimal (c :: ds) ≤ 2147483647
        · rw [if_pos hb] at h1
          refine ⟨.lit (c :: ds), ⟨by simp, ?_, hb⟩, ?_, ?_, nofun⟩
          · intro x hx
            rw [← isDigit_eq]
            rcases List.mem_cons.mp hx with rfl | hx
            · exact hd
            · exact hds x hx
          · rw [← h1.2]; rfl
          · rw [← h1.1]; rfl
        · rw [if_neg hb] at h1
          exact absurd h1.1.symm hi
      · simp at h2
    · rw [if_neg hd] at h
      by_cases hb : c = '{'
      · rw [if_pos hb] at h
        cases r with
        | nil => simp at h
        | cons d r' =>
          simp only at h
          obtain ⟨⟨i, q⟩, h1, h2⟩ := Res.bind_eq_ok.mp h
          obtain ⟨⟨rf, nn⟩, h3, h4⟩ := Res.bind_eq_ok.mp h2
          cases q with
          | nil => simp at h4
          | cons e q =>
            simp only at h4
            split at h4
            · rename_i he
              simp only [Res.ok.injEq, Prod.mk.injEq] at h4
              obtain ⟨rfl, rfl, rfl, rfl⟩ := h4
              rw [he] at h1
              obtain ⟨r0, hv, hs, hid⟩ := parseArgId_sound (Or.inl rfl) h1
              refine ⟨.arg r0, hv, ?_, ?_, nofun⟩
              · rw [hs, hb]; simp [Num.text]
              · have := dynamicSpecId_eq r0 n
                rw [hid] at h3
                rw [h3] at this
                simp only [numParse]
                cases hr : refOf r0 n with
                | none => rw [hr] at this; obtain ⟨m, hm⟩ := this; cases hm
                | some x =>
                  rw [hr] at this
                  simp only [Agrees, Res.ok.injEq] at this
                  rw [← this]; rfl
            · simp at h4
      · rw [if_neg hb] at h
        simp only [Res.ok.injEq, Prod.mk.injEq] at h
        obtain ⟨rfl, rfl, rfl, rfl⟩ := h
        refine ⟨.none, trivial, rfl, rfl, ?_⟩
        intro _ c' r' he
        obtain ⟨rfl, rfl⟩ := List.cons.inj he
        simp [hd, hb]

end Fmt
end Efp
