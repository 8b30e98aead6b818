import Verif.Fmt.TextLemmas

/-!
# Arguments: lookup by index and by name, and the text of an argument
-/

namespace Efp
namespace Fmt

open Spec.Fmt (Bytes ArgOk showDefault showSpecs okOnly nameIndex)

/-! ## Lookup -/

theorem code_lt (t : Ty) : t.code < 16 := by cases t <;> decide

theorem code_pos (a : Arg) : 0 < a.ty.code := by cases a <;> simp [Arg.ty, Ty.code]

theorem encodeTypes_bound : ∀ l : List Arg, l.length ≤ 15 → encodeTypes l < 16 ^ l.length
    ∧ ∀ a r, l = a :: r → encodeTypes l = a.ty.code + 16 * encodeTypes r
  | [], _ => ⟨by decide, by intro a r h; cases h⟩
  | a :: r, hl => by
    have hr : r.length ≤ 14 := by simpa using hl
    have ih := (encodeTypes_bound r (by omega)).1
    have hp : (16 : Nat) ^ r.length ≤ 16 ^ 14 := Nat.pow_le_pow_right (by omega) hr
    have hc := code_lt a.ty
    have e : encodeTypes (a :: r) = a.ty.code + 16 * encodeTypes r := by
      rw [show encodeTypes (a :: r) = a.ty.code ||| encodeTypes r <<< 4 % 2 ^ 64 from rfl, Nat.shiftLeft_eq, Nat.mod_eq_of_lt (by omega), Nat.or_comm, ← Nat.shiftLeft_eq,
        or_shift _ _ 4 (by omega)]
      omega
    refine ⟨?_, ?_⟩
    · rw [e, List.length_cons, Nat.pow_succ]; omega
    · intro b s h
      cases h
      exact e

/-- the type field of the packed descriptor -/
theorem encodeTypes_get : ∀ (l : List Arg) (i : Nat), l.length ≤ 15 →
    encodeTypes l / 16 ^ i % 16 = match l[i]? with
      | some a => a.ty.code
      | none => 0
  | [], i, _ => by simp [encodeTypes]
  | a :: r, 0, hl => by
    rw [(encodeTypes_bound (a :: r) hl).2 a r rfl]
    have := code_lt a.ty
    simp only [List.getElem?_cons_zero, Nat.pow_zero, Nat.div_one]
    omega
  | a :: r, i + 1, hl => by
    rw [(encodeTypes_bound (a :: r) hl).2 a r rfl, Nat.pow_succ', ← Nat.div_div_eq_div_mul]
    have := code_lt a.ty
    rw [show (a.ty.code + 16 * encodeTypes r) / 16 = encodeTypes r by omega]
    rw [encodeTypes_get r i (by simp at hl; omega), List.getElem?_cons_succ]

theorem and_bit (x k : Nat) : x &&& (1 <<< k) = 0 ↔ x.testBit k = false := by
  rw [Nat.one_shiftLeft]
  constructor
  · intro h
    have := congrArg (·.testBit k) h
    simpa [Nat.testBit_and, Nat.testBit_two_pow_self] using this
  · intro h
    apply Nat.eq_of_testBit_eq
    intro i
    rw [Nat.testBit_and, Nat.testBit_two_pow, Nat.zero_testBit]
    by_cases hi : k = i
    · rw [← hi, h]; simp
    · simp [hi]

/-- the descriptor without the bit for names -/
def desc0 (l : List (Option Str × Arg)) : Nat :=
  if l.length ≤ maxPackedArgs then encodeTypes (l.map (·.2)) else isUnpackedBit ||| l.length

theorem or_bit62 (x : Nat) (h : x < 2 ^ 62) : x ||| (1 <<< 62) = x + 2 ^ 62 := by
  rw [Nat.or_comm, or_shift 1 x 62 h]; omega

theorem desc_packed (l : List (Option Str × Arg)) (hl : l.length ≤ 15) :
    (makeArgs l).desc = encodeTypes (l.map (·.2)) + (if initNamedArgs 0 l ≠ [] then 2 ^ 62 else 0)
      ∧ encodeTypes (l.map (·.2)) < 2 ^ 60 := by
  have hb := (encodeTypes_bound (l.map (·.2)) (by simpa using hl)).1
  have hp : (16 : Nat) ^ (l.map (·.2)).length ≤ 16 ^ 15 := Nat.pow_le_pow_right (by omega) (by simpa using hl)
  have h60 : encodeTypes (l.map (·.2)) < 2 ^ 60 := by omega
  refine ⟨?_, h60⟩
  simp only [makeArgs]
  rw [if_pos (show l.length ≤ maxPackedArgs from hl)]
  split
  · exact or_bit62 _ (by omega)
  · rw [Nat.or_zero]; omega

theorem desc_unpacked (l : List (Option Str × Arg)) (hl : 15 < l.length) (hm : l.length < 2 ^ 31) :
    (makeArgs l).desc = l.length + 2 ^ 63 + (if initNamedArgs 0 l ≠ [] then 2 ^ 62 else 0) := by
  simp only [makeArgs]
  rw [if_neg (show ¬ l.length ≤ maxPackedArgs from Nat.not_le.mpr hl)]
  have e : isUnpackedBit ||| l.length = 2 ^ 63 + l.length := by
    unfold isUnpackedBit
    rw [or_shift 1 _ 63 (by omega), Nat.one_mul]
  split
  · unfold isUnpackedBit hasNamedArgsBit
    rw [Nat.or_assoc, or_bit62 _ (by omega), or_shift 1 _ 63 (by omega)]
    omega
  · rw [Nat.or_zero, e]; omega

/-- Looking an argument up by its index finds the argument given at that place. -/
theorem getArg_eq (l : List (Option Str × Arg)) (hm : l.length < 2 ^ 31) (id : Nat) :
    getArg (makeArgs l) id = match l[id]? with
      | some p => .ok p.2
      | none => .err "argument not found" := by
  have hv : (makeArgs l).values[id]? = l[id]?.map (·.2) := by simp [makeArgs]
  unfold getArg Args.get Args.isPacked
  by_cases hl : l.length ≤ 15
  · obtain ⟨hd, h60⟩ := desc_packed l hl
    have hp : (makeArgs l).desc &&& isUnpackedBit = 0 := by
      unfold isUnpackedBit
      rw [and_bit]
      apply Nat.testBit_lt_two_pow
      rw [hd]; split <;> omega
    rw [hp]
    simp only [beq_self_eq_true, Bool.not_true, Bool.false_eq_true, if_false]
    by_cases hid : id ≥ maxPackedArgs
    · rw [if_pos hid, Res.bind_ok]
      have : l[id]? = none := List.getElem?_eq_none (by have : maxPackedArgs = 15 := rfl; omega)
      rw [this]
    · rw [if_neg hid]
      have hid' : id < 15 := Nat.not_le.mp hid
      have htype : (makeArgs l).desc >>> (id * packedArgBits) &&& (1 <<< packedArgBits - 1)
          = match l[id]? with
            | some p => p.2.ty.code
            | none => 0 := by
        rw [show (1 <<< packedArgBits - 1 : Nat) = 2 ^ 4 - 1 from rfl, Nat.and_two_pow_sub_one_eq_mod,
          Nat.shiftRight_eq_div_pow, hd, show id * packedArgBits = 4 * id from Nat.mul_comm _ _, Nat.pow_mul]
        have hg := encodeTypes_get (l.map (·.2)) id (by simpa using hl)
        rw [List.getElem?_map] at hg
        have hsplit : (encodeTypes (l.map (·.2)) + (if initNamedArgs 0 l ≠ [] then 2 ^ 62 else 0)) / 16 ^ id % 16
            = encodeTypes (l.map (·.2)) / 16 ^ id % 16 := by
          split
          · have h62 : (2 : Nat) ^ 62 = 16 ^ id * (16 * 2 ^ (58 - 4 * id)) := by
              rw [show (16 : Nat) = 2 ^ 4 from rfl, ← Nat.pow_mul, ← Nat.pow_add, ← Nat.pow_add]
              congr 1; omega
            rw [h62, Nat.add_mul_div_left _ _ (Nat.pow_pos (by omega)), Nat.add_mul_mod_self_left]
          · rw [Nat.add_zero]
        refine hsplit.trans (hg.trans ?_)
        cases l[id]? <;> rfl
      rw [htype, hv]
      cases hli : l[id]? with
      | none => rfl
      | some p =>
        have hc := code_pos p.2
        simp only [Option.map_some]
        rw [if_neg (show ¬ p.2.ty.code = Ty.code .none by have : Ty.code .none = 0 := rfl; omega), if_pos trivial, Res.bind_ok]
  · have hd := desc_unpacked l (by omega) hm
    have hp : ¬ (makeArgs l).desc &&& isUnpackedBit = 0 := by
      unfold isUnpackedBit
      rw [and_bit, Nat.testBit_eq_decide_div_mod_eq, hd]
      simp only [decide_eq_false_iff_not, Classical.not_not]
      split <;> omega
    rw [show ((makeArgs l).desc &&& isUnpackedBit == 0) = false from beq_eq_false_iff_ne.mpr hp]
    simp only [Bool.not_false, if_true]
    have hms : (makeArgs l).maxSize = l.length := by
      unfold Args.maxSize
      rw [hd]; split <;> omega
    rw [hms, hv]
    by_cases hid : id < l.length
    · rw [if_pos hid, List.getElem?_eq_getElem hid]
      rfl
    · rw [if_neg hid, List.getElem?_eq_none (by omega)]
      rfl

theorem findName_eq (name : Str) : ∀ (l : List (Option Str × Arg)) (i : Nat),
    findName name (initNamedArgs i l) = (l.findIdx? fun p => p.1 = some name).map (i + ·)
  | [], i => rfl
  | (none, a) :: r, i => by
    rw [initNamedArgs, findName_eq name r, List.findIdx?_cons]
    simp only [reduceCtorEq, decide_false, Bool.false_eq_true, if_false, Option.map_map]
    congr 1
    funext x
    show i + 1 + x = i + (x + 1)
    omega
  | (some n, a) :: r, i => by
    rw [initNamedArgs, findName, List.findIdx?_cons]
    by_cases h : n = name
    · simp [h]
    · rw [if_neg h, findName_eq name r]
      simp only [Option.some.injEq, h, decide_false, Bool.false_eq_true, if_false, Option.map_map]
      congr 1
      funext x
      show i + 1 + x = i + (x + 1)
      omega

theorem initNamedArgs_nil (l : List (Option Str × Arg)) (i : Nat) (h : initNamedArgs i l = []) :
    ∀ p ∈ l, p.1 = none := by
  induction l generalizing i with
  | nil => simp
  | cons p r ih =>
    obtain ⟨n, a⟩ := p
    cases n with
    | none =>
      rw [initNamedArgs] at h
      intro q hq
      rcases List.mem_cons.mp hq with rfl | hq
      · rfl
      · exact ih _ h q hq
    | some n => simp [initNamedArgs] at h

/-- Looking an argument up by its name finds the first argument given that name. -/
theorem getId_eq (l : List (Option Str × Arg)) (hm : l.length < 2 ^ 31) (name : Str) :
    (makeArgs l).getId name = nameIndex l name := by
  unfold Args.getId nameIndex
  have hnamed : (makeArgs l).named = initNamedArgs 0 l := rfl
  have hfind := findName_eq name l 0
  simp only [Nat.zero_add, Option.map_id_fun', id] at hfind
  by_cases hn : initNamedArgs 0 l = []
  · have hall := initNamedArgs_nil l 0 hn
    have hnone : (l.findIdx? fun p => p.1 = some name) = none := by
      rw [List.findIdx?_eq_none_iff]
      intro p hp
      simp [hall p hp]
    rw [hnone]
    split
    · rfl
    · rw [hnamed, hn]; rfl
  · have hb : ¬ (makeArgs l).desc &&& hasNamedArgsBit = 0 := by
      unfold hasNamedArgsBit
      rw [and_bit, Nat.testBit_eq_decide_div_mod_eq]
      simp only [decide_eq_false_iff_not, Classical.not_not]
      by_cases hl : l.length ≤ 15
      · obtain ⟨hd, h60⟩ := desc_packed l hl
        rw [hd, if_pos hn]; omega
      · rw [desc_unpacked l (by omega) hm, if_pos hn]; omega
    rw [if_neg hb, hnamed, hfind]

/-! ## Text of an argument -/

/-- the computation gives exactly the result the specification gives, and has no undefined behaviour -/
def Agrees {α : Type} (r : Res α) (o : Option α) : Prop :=
  match o with
  | some t => r = .ok t
  | none => ∃ m, r = .err m

theorem agrees_okOnly {α : Type} (r : Res α) (h : r ≠ .ub) : Agrees r (okOnly r) := by
  cases r with
  | ok a => rfl
  | err m => exact ⟨m, rfl⟩
  | ub => exact absurd rfl h

theorem agrees_of_match {r : Res Str} {o : Option Str} {m : String}
    (h : r = match o with | some t => .ok t | none => .err m) : Agrees r o := by
  cases o with
  | none => exact ⟨m, h⟩
  | some t => exact h

theorem writeDefault_agrees (a : Arg) (h : ArgOk a) : Agrees (writeDefault a) (showDefault a) := by
  cases a with
  | int v => exact writeIntDefault_eq (Or.inl rfl) (by simp only [ArgOk] at h; omega) (by simp only [ArgOk] at h; omega)
  | uint v => exact writeIntDefault_eq (Or.inl rfl) (by omega) (by simp only [ArgOk] at h; omega)
  | longLong v =>
    exact writeIntDefault_eq (Or.inr (Or.inl rfl)) (by simp only [ArgOk] at h; omega) (by simp only [ArgOk] at h; omega)
  | ulongLong v => exact writeIntDefault_eq (Or.inr (Or.inl rfl)) (by omega) (by simp only [ArgOk] at h; omega)
  | int128 v =>
    exact writeIntDefault_eq (Or.inr (Or.inr rfl)) (by simp only [ArgOk] at h; omega) (by simp only [ArgOk] at h; omega)
  | uint128 v => exact writeIntDefault_eq (Or.inr (Or.inr rfl)) (by omega) (by simp only [ArgOk] at h; omega)
  | bool v => cases v <;> rfl
  | char c => rfl
  | float t f => exact agrees_okOnly t h.1
  | double t f => exact agrees_okOnly t h.1
  | longDouble t f => exact agrees_okOnly t h.1
  | cstring addr s =>
    by_cases h0 : addr = 0
    · simp only [writeDefault, showDefault, h0, if_true]; exact ⟨_, rfl⟩
    · simp only [writeDefault, showDefault, h0, if_false]; rfl
  | string s => rfl
  | pointer addr =>
    show writePtr addr {} = .ok ('0' :: 'x' :: Nat.toDigits 16 addr)
    rw [writePtr_eq addr {} h (by decide)]
    unfold Spec.Fmt.showPtr
    rw [pad_of_le _ _ _ _ (Nat.zero_le _)]
  | custom f =>
    simp only [writeDefault, showDefault]
    cases hf : f [] 0 with
    | ok x => rfl
    | err m => exact ⟨m, rfl⟩
    | ub => exact absurd hf (h [] 0).1

theorem writeSpecs_agrees (a : Arg) (sp : Specs) (h : ArgOk a) (hw : sp.width < 2 ^ 31)
    (hp : a.ty.isFloat = false → a.ty.text = false → sp.precision = -1) (hc : a.ty ≠ .custom) :
    Agrees (writeSpecs sp a) (showSpecs isPrintable sp a) := by
  cases a with
  | int v =>
    exact agrees_of_match (writeInt_eq sp (Or.inl rfl) (by simp only [ArgOk] at h; omega)
      (by simp only [ArgOk] at h; omega) (hp rfl rfl) hw)
  | uint v =>
    exact agrees_of_match (writeInt_eq sp (Or.inl rfl) (by omega) (by simp only [ArgOk] at h; omega) (hp rfl rfl) hw)
  | longLong v =>
    exact agrees_of_match (writeInt_eq sp (Or.inr (Or.inl rfl)) (by simp only [ArgOk] at h; omega)
      (by simp only [ArgOk] at h; omega) (hp rfl rfl) hw)
  | ulongLong v =>
    exact agrees_of_match (writeInt_eq sp (Or.inr (Or.inl rfl)) (by omega) (by simp only [ArgOk] at h; omega)
      (hp rfl rfl) hw)
  | int128 v =>
    exact agrees_of_match (writeInt_eq sp (Or.inr (Or.inr rfl)) (by simp only [ArgOk] at h; omega)
      (by simp only [ArgOk] at h; omega) (hp rfl rfl) hw)
  | uint128 v =>
    exact agrees_of_match (writeInt_eq sp (Or.inr (Or.inr rfl)) (by omega) (by simp only [ArgOk] at h; omega)
      (hp rfl rfl) hw)
  | bool v => exact agrees_of_match (writeBool_eq v sp (hp rfl rfl) hw)
  | char c =>
    obtain ⟨m, hm⟩ := writeCharSpecs_eq c sp h (hp rfl rfl) hw
    exact agrees_of_match hm
  | float t f => exact agrees_okOnly (f sp) (h.2 sp)
  | double t f => exact agrees_okOnly (f sp) (h.2 sp)
  | longDouble t f => exact agrees_okOnly (f sp) (h.2 sp)
  | cstring addr s =>
    simp only [writeSpecs, showSpecs]
    by_cases h1 : sp.type = .pointer
    · rw [if_pos h1, if_pos h1]; exact writePtr_eq addr sp h.1 hw
    · rw [if_neg h1, if_neg h1]
      by_cases h0 : addr = 0
      · rw [if_pos h0, if_pos h0]; exact ⟨_, rfl⟩
      · rw [if_neg h0, if_neg h0]; exact writeStr_eq s sp h.2 hw
  | string s => exact writeStr_eq s sp h hw
  | pointer addr => exact writePtr_eq addr sp h hw
  | custom f => exact absurd rfl hc

end Fmt
end Efp
