import Verif.Fmt.Ops
import Verif.Fmt.BufferKinds
import Verif.Fmt.Reverse

/-!
# Helper lemmas: the operations on the buffer write the text, and use up what they reserve
-/

namespace Efp
namespace Fmt

open Spec.Fmt

/-- two results agree, up to a relation on the values -/
inductive RRel {α β : Type} (R : α → β → Prop) : Res α → Res β → Prop
  | ok {a b} (h : R a b) : RRel R (.ok a) (.ok b)
  | err (m) : RRel R (.err m) (.err m)
  | ub : RRel R .ub .ub

theorem RRel.bind {α β γ δ : Type} {R : α → β → Prop} {S : γ → δ → Prop} {x : Res α} {y : Res β} {f : α → Res γ}
    {g : β → Res δ} (h : RRel R x y) (hf : ∀ a b, x = .ok a → R a b → RRel S (f a) (g b)) : RRel S (x >>= f) (y >>= g) := by
  cases h with
  | ok h => exact hf _ _ rfl h
  | err m => exact .err m
  | ub => exact .ub

theorem RRel.same {α γ δ : Type} {S : γ → δ → Prop} (x : Res α) {f : α → Res γ} {g : α → Res δ}
    (hf : ∀ a, x = .ok a → RRel S (f a) (g a)) : RRel S (x >>= f) (x >>= g) := by
  cases x with
  | ok a => exact hf a rfl
  | err m => exact .err m
  | ub => exact .ub

/-! ## Operations -/

theorem opsText_append (l m : List Op) : opsText (l ++ m) = opsText l ++ opsText m := List.flatMap_append

theorem opsText_cons (o : Op) (l : List Op) : opsText (o :: l) = o.text ++ opsText l := rfl

theorem opsText_pushes (t : Str) : opsText (pushes t) = t := by
  induction t with
  | nil => rfl
  | cons c t ih => exact congrArg (c :: ·) ih

/-- nothing is reserved -/
def Plain (l : List Op) : Prop := ∀ o ∈ l, ∀ n, o ≠ .reserve n

theorem Plain.append {l m : List Op} (hl : Plain l) (hm : Plain m) : Plain (l ++ m) := by
  intro o ho
  rcases List.mem_append.mp ho with h | h
  · exact hl o h
  · exact hm o h

theorem plain_pushes (t : Str) : Plain (pushes t) := by
  intro o ho n
  obtain ⟨c, _, rfl⟩ := List.mem_map.mp ho
  nofun

theorem plain_append1 (t : Str) : Plain [.append t] := by
  intro o ho n
  rw [List.mem_singleton] at ho
  rw [ho]; nofun

theorem plain_direct (p t : Str) : Plain [.direct p t] := by
  intro o ho n
  rw [List.mem_singleton] at ho
  rw [ho]; nofun

theorem plain_fill (n : Nat) (f : Str) : Plain (fillOps n f) := by
  intro o ho m
  unfold fillOps at ho
  split at ho <;>
  · rw [(List.mem_replicate.mp ho).2]; nofun

theorem opsText_fill (n : Nat) (f : Str) : opsText (fillOps n f) = fillStr n f := by
  have key : ∀ o : Op, opsText (List.replicate n o) = (List.replicate n o.text).flatten := by
    intro o
    induction n with
    | zero => rfl
    | succ n ih => rw [List.replicate_succ, List.replicate_succ, opsText_cons, List.flatten_cons, ih]
  unfold fillOps fillStr
  split
  · exact key _
  · exact key _

theorem Plain.exact {l : List Op} (h : Plain l) : Exact l := by
  induction l with
  | nil => trivial
  | cons o l ih =>
    have ih := ih fun o ho => h o (List.mem_cons_of_mem _ ho)
    cases o with
    | reserve n => exact absurd rfl (h _ (List.mem_cons_self ..) n)
    | _ => exact ih

theorem Exact.append {l m : List Op} (hl : Exact l) (hm : Exact m) : Exact (l ++ m) := by
  induction l with
  | nil => exact hm
  | cons o l ih =>
    cases o with
    | reserve n =>
      refine ⟨?_, ih hl.2⟩
      have := hl.1
      show n ≤ (opsText (l ++ m)).length
      rw [opsText_append, List.length_append]; omega
    | push c => exact ih hl
    | append t => exact ih hl
    | direct p t => exact ih hl

theorem exact_reserve {l : List Op} (h : Exact l) : ∀ n, .reserve n ∈ l → n ≤ (opsText l).length := by
  induction l with
  | nil => intro _ h; nomatch h
  | cons o l ih =>
    intro n hn
    rw [opsText_cons, List.length_append]
    rcases List.mem_cons.mp hn with rfl | hn
    · have := h.1
      omega
    · have : Exact l := by
        cases o with
        | reserve m => exact h.2
        | _ => exact h
      have := ih this n hn
      omega

/-- the operations write the text, and use up what they reserve -/
def Writes (t : Str) (l : List Op) : Prop := t = opsText l ∧ Exact l

theorem Writes.append {t u : Str} {l m : List Op} (hl : Writes t l) (hm : Writes u m) : Writes (t ++ u) (l ++ m) :=
  ⟨by rw [opsText_append, ← hl.1, ← hm.1], hl.2.append hm.2⟩

theorem fillStr_length (n : Nat) (f : Str) : (fillStr n f).length = n * f.length := by
  unfold fillStr
  rw [List.length_flatten, List.map_replicate, List.sum_replicate_nat]

theorem writePadded_writes (right : Bool) (sp : Specs) (size width : Nat) (body : List Op) (hp : Plain body)
    (hs : size ≤ (opsText body).length) :
    Writes (writePadded right sp width (opsText body)) (writePaddedOps right sp size width body) := by
  unfold writePadded writePaddedOps
  generalize hpad : (if sp.width > width then sp.width - width else 0) = padding
  simp only
  generalize hleft : padding >>> (shifts right).getD sp.align.index 0 = left
  have hl : left ≤ padding := by rw [← hleft, Nat.shiftRight_eq_div_pow]; exact Nat.div_le_self _ _
  have hplain : Plain (fillOps left sp.fill ++ body ++ fillOps (padding - left) sp.fill) :=
    ((plain_fill _ _).append hp).append (plain_fill _ _)
  refine ⟨?_, ?_, hplain.exact⟩
  · rw [opsText_cons, opsText_append, opsText_append, opsText_fill, opsText_fill]; rfl
  · rw [opsText_append, opsText_append, opsText_fill, opsText_fill, List.length_append, List.length_append, fillStr_length,
      fillStr_length]
    have : padding * sp.fill.length = left * sp.fill.length + (padding - left) * sp.fill.length := by
      rw [← Nat.add_mul, Nat.add_sub_cancel' hl]
    omega

/-! ## Digits -/

theorem digits2_length (v : Nat) (h : v < 100) : (digits2 v).length = 2 := by
  have : ∀ v < 100, (digits2 v).length = 2 := by decide +kernel
  exact this v h

theorem formatDecimalLoop_length : ∀ (fuel room v : Nat) (acc : Str) (r : Nat) (t : Str),
    formatDecimalLoop fuel room v acc = .ok (r, t) → t.length + r = room + acc.length
  | 0, _, _, _, _, _, h => nomatch h
  | fuel + 1, room, v, acc, r, t, h => by
    simp only [formatDecimalLoop] at h
    split at h
    · split at h
      · nomatch h
      · have := formatDecimalLoop_length fuel _ _ _ _ _ h
        rw [List.length_append, digits2_length _ (Nat.mod_lt _ (by decide))] at this
        omega
    · split at h
      · split at h
        · nomatch h
        · simp only [Res.ok.injEq, Prod.mk.injEq] at h
          rw [← h.1, ← h.2, List.length_cons]; omega
      · split at h
        · nomatch h
        · simp only [Res.ok.injEq, Prod.mk.injEq] at h
          rw [← h.1, ← h.2, List.length_append, digits2_length _ (by omega)]; omega

theorem formatDecimal_length {w v n : Nat} {t : Str} (h : formatDecimal w v n = .ok t) : t.length = n := by
  unfold formatDecimal at h
  by_cases h1 : decimalRoom w < n
  · rw [if_pos h1] at h; nomatch h
  · rw [if_neg h1] at h
    cases h2 : formatDecimalLoop 64 n v [] with
    | err m => rw [h2] at h; nomatch h
    | ub => rw [h2] at h; nomatch h
    | ok p =>
      rw [h2] at h
      have h : (if p.1 = 0 then Res.ok p.2 else .ub) = .ok t := h
      have := formatDecimalLoop_length 64 n v [] p.1 p.2 h2
      split at h
      · cases h
        simp only [List.length_nil] at this
        omega
      · nomatch h

theorem formatUintLoop_length (bits : Nat) (upper : Bool) : ∀ (room v : Nat) (acc : Str) (r : Nat) (t : Str),
    formatUintLoop bits upper room v acc = .ok (r, t) → t.length + r = room + acc.length
  | 0, _, _, _, _, h => nomatch h
  | room + 1, v, acc, r, t, h => by
    simp only [formatUintLoop] at h
    split at h
    · have := formatUintLoop_length bits upper room _ _ _ _ h
      rw [List.length_cons] at this
      omega
    · simp only [Res.ok.injEq, Prod.mk.injEq] at h
      rw [← h.1, ← h.2, List.length_cons]; omega

theorem formatUint_length {bits w v n : Nat} {upper : Bool} {t : Str} (h : formatUint bits w v n upper = .ok t) :
    t.length = n := by
  unfold formatUint at h
  by_cases h1 : w / bits + 1 < n
  · rw [if_pos h1] at h; nomatch h
  · rw [if_neg h1] at h
    cases h2 : formatUintLoop bits upper n v [] with
    | err m => rw [h2] at h; nomatch h
    | ub => rw [h2] at h; nomatch h
    | ok p =>
      rw [h2] at h
      have h : (if p.1 = 0 then Res.ok p.2 else .ub) = .ok t := h
      have := formatUintLoop_length bits upper n v [] p.1 p.2 h2
      split at h
      · cases h
        simp only [List.length_nil] at this
        omega
      · nomatch h

/-! ## Integers -/

/-- the bytes of the prefix are counted in its highest byte -/
def PrefixOk (pre : Nat) : Prop := (prefixBytes 4 (pre &&& 0xffffff)).length = pre >>> 24

theorem writeIntDigits_writes {n pre : Nat} (sp : Specs) {digits : Str} {ops : List Op} (hp : PrefixOk pre)
    (hd : digits = opsText ops) (hn : digits.length = n) (hpl : Plain ops) :
    Writes (writeIntDigits n pre sp digits) (writeIntDigitsOps n pre sp ops) := by
  unfold writeIntDigits writeIntDigitsOps
  unfold PrefixOk at hp
  split
  · have e : (if pre ≠ 0 then prefixBytes 4 (pre &&& 0xffffff) else []) = prefixBytes 4 (pre &&& 0xffffff) := by
      split
      · rfl
      · rename_i h
        rw [Decidable.not_not.mp h]; rfl
    have e' : (if pre ≠ 0 then pushes (prefixBytes 4 (pre &&& 0xffffff)) else []) = pushes (prefixBytes 4 (pre &&& 0xffffff)) := by
      split
      · rfl
      · rename_i h
        rw [Decidable.not_not.mp h]; rfl
    rw [e, e']
    refine ⟨?_, ?_, ((plain_pushes _).append hpl).exact⟩
    · rw [opsText_cons, opsText_append, opsText_pushes, ← hd]; rfl
    · rw [opsText_append, opsText_pushes, ← hd, List.length_append]; omega
  · have e : prefixBytes 4 (pre &&& 0xffffff) ++ (List.replicate (writeIntData n pre sp).2 '0' ++ digits) =
        opsText (pushes (prefixBytes 4 (pre &&& 0xffffff)) ++ (pushes (List.replicate (writeIntData n pre sp).2 '0') ++ ops)) := by
      rw [opsText_append, opsText_append, opsText_pushes, opsText_pushes, hd]
    rw [e]
    refine writePadded_writes _ _ _ _ _ ((plain_pushes _).append ((plain_pushes _).append hpl)) ?_
    rw [← e, List.length_append, List.length_append, List.length_replicate, hp, hn]
    unfold writeIntData
    split
    · split <;> simp only <;> omega
    · split <;> simp only <;> omega

theorem makeWriteIntArg_mem (w : Nat) (v : Int) (s : Sign) : ∃ t, ((makeWriteIntArg w v s).2, t) ∈ signPrefixes := by
  rcases makeWriteIntArg_prefix w v s with ⟨h, _⟩ | ⟨h, _⟩ | ⟨h, _⟩ | ⟨h, _⟩ <;> rw [h]
  · exact ⟨[], by decide⟩
  · exact ⟨['-'], by decide⟩
  · exact ⟨['+'], by decide⟩
  · exact ⟨[' '], by decide⟩

theorem prefixOk_plain {pre : Nat} {t : Str} (h : (pre, t) ∈ signPrefixes) : PrefixOk pre := by
  have := prefixes_plain _ h
  unfold PrefixOk
  rw [this.1, this.2]

theorem prefixOk_alt {pre v : Nat} {t u : Str} (h : (pre, t) ∈ signPrefixes) (hv : (v, u) ∈ basePrefixes) :
    PrefixOk (prefixAppend pre v) := by
  have := prefixes_alt _ h _ hv
  unfold PrefixOk
  rw [this.1, this.2]

theorem writeEscapedChar_pos {c : Char} {t : Str} (h : writeEscapedChar c = .ok t) : 1 ≤ t.length := by
  unfold writeEscapedChar at h
  split at h
  · cases he : writeEscapedCp (charToU32 c) [c] with
    | ok e =>
      rw [he] at h
      cases h
      exact Nat.succ_le_succ (Nat.zero_le _)
    | err m => rw [he] at h; nomatch h
    | ub => rw [he] at h; nomatch h
  · cases h; exact Nat.succ_le_succ (Nat.zero_le _)

theorem writeChar_writes (c : Char) (sp : Specs) : RRel Writes (writeChar c sp) (writeCharOps c sp) := by
  have key : ∀ body : Str, 1 ≤ body.length → Writes (writePadded false sp 1 body) (writePaddedOps false sp 1 1 (pushes body)) := by
    intro body hb
    have h := writePadded_writes false sp 1 1 (pushes body) (plain_pushes body) (by rw [opsText_pushes]; exact hb)
    rw [opsText_pushes] at h
    exact h
  unfold writeChar writeCharOps
  by_cases hd : sp.type = .debug
  · simp only [if_pos hd]
    exact RRel.same _ fun body hb => .ok (key body (writeEscapedChar_pos hb))
  · simp only [if_neg hd]
    exact .ok (key [c] (Nat.le_refl _))

theorem writeIntArg_writes (w abs pre : Nat) (sp : Specs) {t : Str} (hp : (pre, t) ∈ signPrefixes) :
    RRel Writes (writeIntArg w abs pre sp) (writeIntArgOps w abs pre sp) := by
  have one : ∀ d : Str, opsText [.append d] = d := fun d => by simp [opsText, Op.text]
  have two : ∀ d : Str, opsText [.direct [] d] = d := fun d => by simp [opsText, Op.text]
  have dec : RRel Writes (do
      let n ← countDigits w abs
      let digits ← formatDecimal w abs n
      .ok (writeIntDigits n pre sp digits)) (do
      let n ← countDigits w abs
      let digits ← formatDecimal w abs n
      .ok (writeIntDigitsOps n pre sp [.append digits])) := by
    refine RRel.same _ fun n _ => RRel.same _ fun d hd => .ok ?_
    exact writeIntDigits_writes sp (prefixOk_plain hp) (one d).symm (formatDecimal_length hd) (plain_append1 d)
  have based : ∀ (pre : Nat) (bits : Nat) (upper : Bool), PrefixOk pre → RRel Writes (do
      let n ← countDigitsBits bits w abs
      let digits ← formatUint bits w abs n upper
      .ok (writeIntDigits n pre sp digits)) (do
      let n ← countDigitsBits bits w abs
      let digits ← formatUint bits w abs n upper
      .ok (writeIntDigitsOps n pre sp [.direct [] digits])) := by
    intro pre bits upper hpre
    refine RRel.same _ fun n _ => RRel.same _ fun d hd => .ok ?_
    exact writeIntDigits_writes sp hpre (two d).symm (formatUint_length hd) (plain_direct _ d)
  have alt : ∀ v u, (v, u) ∈ basePrefixes → PrefixOk (if sp.alt = true then prefixAppend pre v else pre) := by
    intro v u hv
    split
    · exact prefixOk_alt hp hv
    · exact prefixOk_plain hp
  unfold writeIntArg writeIntArgOps
  cases hty : sp.type with
  | none => exact dec
  | dec => exact dec
  | hexLower => exact based _ _ _ (alt _ ['0', 'x'] (by decide))
  | hexUpper => exact based _ _ _ (alt _ ['0', 'X'] (by decide))
  | binLower => exact based _ _ _ (alt _ ['0', 'b'] (by decide))
  | binUpper => exact based _ _ _ (alt _ ['0', 'B'] (by decide))
  | oct =>
    simp only
    refine RRel.same _ fun n _ => RRel.same _ fun d hd => .ok ?_
    refine writeIntDigits_writes sp ?_ (two d).symm (formatUint_length hd) (plain_direct _ d)
    split
    · exact prefixOk_alt hp (u := ['0']) (by decide)
    · exact prefixOk_plain hp
  | chr => exact writeChar_writes _ _
  | _ => exact .err _

theorem writeInt_writes (w : Nat) (v : Int) (sp : Specs) : RRel Writes (writeInt w v sp) (writeIntOps w v sp) := by
  obtain ⟨t, ht⟩ := makeWriteIntArg_mem w v sp.sign
  exact writeIntArg_writes w _ _ sp ht

theorem writeIntDefault_writes (w : Nat) (v : Int) : RRel Writes (writeIntDefault w v) (writeIntDefaultOps w v) := by
  unfold writeIntDefault writeIntDefaultOps
  refine RRel.same _ fun n _ => RRel.same _ fun d hd => .ok ⟨?_, ?_, trivial⟩
  · simp [opsText, Op.text]
  · have := formatDecimal_length hd
    show _ ≤ (opsText [.direct _ d]).length
    simp only [opsText, Op.text, List.flatMap_cons, List.flatMap_nil, List.append_nil, List.length_append, this]
    split <;> simp

theorem writePtr_writes (v : Nat) (sp : Specs) : RRel Writes (writePtr v sp) (writePtrOps v sp) := by
  unfold writePtr writePtrOps
  refine RRel.same _ fun n _ => RRel.same _ fun d hd => .ok ?_
  have e : '0' :: 'x' :: d = opsText [.push '0', .push 'x', .direct [] d] := by simp [opsText, Op.text]
  rw [e]
  refine writePadded_writes _ _ _ _ _ ?_ ?_
  · intro o ho n
    simp only [List.mem_cons, List.not_mem_nil, or_false] at ho
    rcases ho with rfl | rfl | rfl <;> nofun
  · rw [← e, List.length_cons, List.length_cons, formatUint_length hd]; omega

theorem writeBool_writes (v : Bool) (sp : Specs) : RRel Writes (writeBool v sp) (writeBoolOps v sp) := by
  unfold writeBool writeBoolOps
  split
  · exact writeInt_writes _ _ _
  · refine .ok ?_
    generalize (if v = true then "true".toList else "false".toList) = text
    have e : text = opsText [.append text] := by simp [opsText, Op.text]
    have h := writePadded_writes false sp text.length text.length [.append text] (plain_append1 _) (by rw [← e]; exact Nat.le_refl _)
    rw [← e] at h
    exact h

theorem writeCharSpecs_writes (c : Char) (sp : Specs) : RRel Writes (writeCharSpecs c sp) (writeCharSpecsOps c sp) := by
  unfold writeCharSpecs writeCharSpecsOps
  refine RRel.same _ fun b _ => ?_
  cases b with
  | true => exact writeChar_writes _ _
  | false => exact writeInt_writes _ _ _

/-! ## Text -/

theorem hex_ge (w n : Nat) : w ≤ (hex w n).length := by
  unfold hex
  rw [List.length_append, List.length_replicate]; omega

theorem utf8_length_le (c : Char) : (utf8 c).length ≤ 4 := by
  rw [utf8_length]
  split
  · decide
  split
  · decide
  split <;> decide

theorem escapePiece_length (p : Option Char × Str) (hp : p.1 = none ∨ ∃ c, p = (some c, utf8 c)) :
    p.2.length ≤ (escapePiece isPrintable p).length := by
  obtain ⟨q, t⟩ := p
  cases q with
  | none =>
    simp only [escapePiece]
    induction t with
    | nil => exact Nat.le_refl _
    | cons b t ih =>
      have := ih (Or.inl rfl)
      simp only [List.flatMap_cons, List.length_append, List.length_cons] at this ⊢
      omega
  | some c =>
    rcases hp with hp | ⟨d, hp⟩
    · nomatch hp
    · cases hp
      have h4 := utf8_length_le c
      simp only [escapePiece]
      split
      · rename_i h; rw [h]; decide
      split
      · rename_i h; rw [h]; decide
      split
      · rename_i h; rw [h]; decide
      split
      · rename_i h; rw [h]; decide
      split
      · rename_i h; rw [h]; decide
      split
      · exact Nat.le_refl _
      split
      · have := hex_ge 2 c.toNat
        simp only [List.length_cons]; omega
      split
      · have := hex_ge 4 c.toNat
        simp only [List.length_cons]; omega
      · have := hex_ge 8 c.toNat
        simp only [List.length_cons]; omega

theorem piecesN_cases : ∀ (n : Nat) (s : Str), ∀ p ∈ piecesN n s, p.1 = none ∨ ∃ c, p = (some c, utf8 c)
  | 0, _, _, h => nomatch h
  | n + 1, [], p, h => nomatch h
  | n + 1, b :: r, p, h => by
    simp only [piecesN] at h
    split at h
    · rcases List.mem_cons.mp h with h | h
      · exact Or.inr ⟨_, h⟩
      · exact piecesN_cases n _ p h
    · rcases List.mem_cons.mp h with h | h
      · exact Or.inl (by rw [h])
      · exact piecesN_cases n _ p h

theorem escape_length (s : Str) (h : Bytes s) : s.length ≤ (escape isPrintable s).length := by
  have key : ∀ ps : List (Option Char × Str), (∀ p ∈ ps, p.1 = none ∨ ∃ c, p = (some c, utf8 c)) →
      (join ps).length ≤ (ps.flatMap (escapePiece isPrintable)).length := by
    intro ps hps
    induction ps with
    | nil => exact Nat.le_refl _
    | cons p ps ih =>
      have h1 := ih fun p hp => hps p (List.mem_cons_of_mem _ hp)
      have h2 := escapePiece_length p (hps p (List.mem_cons_self ..))
      rw [List.flatMap_cons, List.length_append]
      have : (join (p :: ps)).length = p.2.length + (join ps).length := by
        show (((p :: ps).map (·.2)).flatten).length = _
        rw [List.map_cons, List.flatten_cons, List.length_append]; rfl
      omega
  have := key (pieces s) (piecesN_cases _ _)
  rw [join_pieces s h] at this
  unfold escape
  simp only [List.length_append, List.length_cons]
  omega

theorem join_take_length (ps : List (Option Char × Str)) (n : Nat) : (join (ps.take n)).length ≤ (join ps).length := by
  have : join ps = join (ps.take n) ++ join (ps.drop n) := by
    show ((ps.map (·.2)).flatten) = ((ps.take n).map (·.2)).flatten ++ ((ps.drop n).map (·.2)).flatten
    rw [← List.flatten_append, ← List.map_append, List.take_append_drop]
  rw [this, List.length_append]; omega

theorem writeStr_writes (s : Str) (hs : Bytes s) (sp : Specs) : RRel Writes (writeStr s sp) (writeStrOps s sp) := by
  unfold writeStr writeStrOps
  refine RRel.same _ fun size h1 => RRel.same _ fun width _ => RRel.same _ fun body h3 => .ok ?_
  have hsize : size ≤ s.length := by
    unfold strSize at h1
    split at h1
    · rw [codePointIndex_eq s hs] at h1
      cases h1
      have := join_take_length (pieces s) sp.precision.toNat
      rw [join_pieces s hs] at this
      exact this
    · cases h1; exact Nat.le_refl _
  unfold strBody at h3
  split at h3
  · rename_i hd
    rw [if_pos hd]
    rw [writeEscapedString_eq s hs] at h3
    have h := writePadded_writes false sp size width (pushes body) (plain_pushes _) (by
      rw [opsText_pushes]
      cases h3
      exact Nat.le_trans hsize (escape_length s hs))
    rw [opsText_pushes] at h
    exact h
  · rename_i hd
    rw [if_neg hd]
    have e : body = opsText [.append body] := by simp [opsText, Op.text]
    have h := writePadded_writes false sp size width [.append body] (plain_append1 _) (by
      rw [← e]
      cases h3
      rw [List.length_take]; omega)
    rw [← e] at h
    exact h

theorem writeText_writes (s : Str) : Writes s (writeTextOps s) :=
  ⟨by simp [writeTextOps, opsText, Op.text], by simp [writeTextOps, Exact, opsText, Op.text]⟩

theorem append_writes (s : Str) : Writes s [.append s] := ⟨by simp [opsText, Op.text], trivial⟩

/-! ## Arguments -/

theorem writeDefault_writes (a : Arg) : RRel Writes (writeDefault a) (writeDefaultOps a) := by
  have app : ∀ r : Res Str, RRel Writes r (r >>= fun text => .ok [.append text]) := by
    intro r
    cases r with
    | ok t => exact .ok (append_writes t)
    | err m => exact .err m
    | ub => exact .ub
  cases a with
  | int v => exact writeIntDefault_writes _ _
  | uint v => exact writeIntDefault_writes _ _
  | longLong v => exact writeIntDefault_writes _ _
  | ulongLong v => exact writeIntDefault_writes _ _
  | int128 v => exact writeIntDefault_writes _ _
  | uint128 v => exact writeIntDefault_writes _ _
  | bool v => exact writeBool_writes _ _
  | char c => exact .ok ⟨by simp [opsText, Op.text], by simp [opsText, Op.text], trivial⟩
  | float t f => exact app t
  | double t f => exact app t
  | longDouble t f => exact app t
  | cstring addr s =>
    simp only [writeDefault, writeDefaultOps]
    split
    · exact .err _
    · exact .ok (writeText_writes s)
  | string s => exact .ok (writeText_writes s)
  | pointer a => exact writePtr_writes _ _
  | custom f =>
    simp only [writeDefault, writeDefaultOps]
    exact RRel.same _ fun x _ => .ok (append_writes _)

theorem writeSpecs_writes (sp : Specs) (a : Arg) (h : ArgOk a) : RRel Writes (writeSpecs sp a) (writeSpecsOps sp a) := by
  have app : ∀ r : Res Str, RRel Writes r (r >>= fun text => .ok [.append text]) := by
    intro r
    cases r with
    | ok t => exact .ok (append_writes t)
    | err m => exact .err m
    | ub => exact .ub
  cases a with
  | int v => exact writeInt_writes _ _ _
  | uint v => exact writeInt_writes _ _ _
  | longLong v => exact writeInt_writes _ _ _
  | ulongLong v => exact writeInt_writes _ _ _
  | int128 v => exact writeInt_writes _ _ _
  | uint128 v => exact writeInt_writes _ _ _
  | bool v => exact writeBool_writes _ _
  | char c => exact writeCharSpecs_writes _ _
  | float t f => exact app (f sp)
  | double t f => exact app (f sp)
  | longDouble t f => exact app (f sp)
  | cstring addr s =>
    simp only [writeSpecs, writeSpecsOps]
    split
    · exact writePtr_writes _ _
    · split
      · exact .err _
      · exact writeStr_writes s h.2 sp
  | string s => exact writeStr_writes s h sp
  | pointer a => exact writePtr_writes _ _
  | custom f => exact .ok ⟨rfl, trivial⟩

/-! ## The scanner -/

variable {σ τ : Type}

/-- the states of two handlers stay related -/
structure Simulates (h : Handler σ) (k : Handler τ) (R : σ → τ → Prop) : Prop where
  onText : ∀ t s o, R s o → RRel R (h.onText t s) (k.onText t o)
  onArgId : ∀ id s o, R s o → RRel (fun p q => p.1 = q.1 ∧ R p.2 q.2) (h.onArgId id s) (k.onArgId id o)
  onReplacementField : ∀ i s o, R s o → RRel R (h.onReplacementField i s) (k.onReplacementField i o)
  onFormatSpecs : ∀ i b s o, R s o → RRel (fun p q => p.1 = q.1 ∧ R p.2 q.2) (h.onFormatSpecs i b s) (k.onFormatSpecs i b o)

variable {h : Handler σ} {k : Handler τ} {R : σ → τ → Prop}

theorem Simulates.field (S : Simulates h k R) (after : Str) {s : σ} {o : τ} (hr : R s o) :
    RRel (fun p q => p.1 = q.1 ∧ R p.2 q.2) (parseReplacementField h after s) (parseReplacementField k after o) := by
  cases after with
  | nil => exact .err _
  | cons c r =>
    simp only [parseReplacementField]
    split
    · refine (S.onArgId _ _ _ hr).bind fun a b _ hab => ?_
      obtain ⟨i, s1⟩ := a
      obtain ⟨j, o1⟩ := b
      obtain ⟨rfl, hab⟩ := hab
      exact (S.onReplacementField _ _ _ hab).bind fun _ _ _ h => .ok ⟨rfl, h⟩
    split
    · exact (S.onText _ _ _ hr).bind fun _ _ _ h => .ok ⟨rfl, h⟩
    · refine RRel.same _ fun x _ => ?_
      refine (S.onArgId _ _ _ hr).bind fun a b _ hab => ?_
      obtain ⟨i, s1⟩ := a
      obtain ⟨j, o1⟩ := b
      obtain ⟨rfl, hab⟩ := hab
      simp only
      cases x.2 with
      | nil => exact .err _
      | cons d b' =>
        simp only
        split
        · exact (S.onReplacementField _ _ _ hab).bind fun _ _ _ h => .ok ⟨rfl, h⟩
        split
        · refine (S.onFormatSpecs _ _ _ _ hab).bind fun p q _ hpq => ?_
          obtain ⟨e, s2⟩ := p
          obtain ⟨e', o2⟩ := q
          obtain ⟨rfl, hpq⟩ := hpq
          cases e with
          | nil => exact .err _
          | cons x e =>
            simp only
            split
            · exact .ok ⟨rfl, hpq⟩
            · exact .err _
        · exact .err _

theorem Simulates.shortLoop (S : Simulates h k R) : ∀ (fuel : Nat) (text p : Str) (s : σ) (o : τ), R s o →
    RRel R (shortLoop h fuel text p s) (shortLoop k fuel text p o)
  | fuel, text, [], s, o, hr => by rw [shortLoop_nil, shortLoop_nil]; exact S.onText _ _ _ hr
  | 0, text, c :: p, s, o, hr => .ub
  | fuel + 1, text, c :: p, s, o, hr => by
    simp only [Fmt.shortLoop]
    split
    · refine (S.onText _ _ _ hr).bind fun s1 o1 _ h1 => ?_
      refine (S.field p h1).bind fun a b _ hab => ?_
      obtain ⟨i, s1⟩ := a
      obtain ⟨j, o1⟩ := b
      obtain ⟨rfl, hab⟩ := hab
      exact S.shortLoop fuel _ _ _ _ hab
    split
    · cases p with
      | nil => exact .err _
      | cons d p =>
        simp only
        split
        · exact .err _
        · exact (S.onText _ _ _ hr).bind fun s1 o1 _ h1 => S.shortLoop fuel _ _ _ _ h1
    · exact S.shortLoop fuel _ _ _ _ hr

theorem Simulates.writerLoop (S : Simulates h k R) : ∀ (fuel : Nat) (text : Str) (s : σ) (o : τ), R s o →
    RRel R (writerLoop h fuel text s) (writerLoop k fuel text o)
  | 0, text, s, o, hr => .ub
  | fuel + 1, text, s, o, hr => by
    simp only [Fmt.writerLoop]
    cases find '}' text with
    | none => exact S.onText _ _ _ hr
    | some x =>
      obtain ⟨before, rest⟩ := x
      simp only
      split
      · split
        · exact .err _
        · exact (S.onText _ _ _ hr).bind fun s1 o1 _ h1 => S.writerLoop fuel _ _ _ h1
      · exact .err _

theorem Simulates.writer (S : Simulates h k R) (text : Str) {s : σ} {o : τ} (hr : R s o) :
    RRel R (writer h text s) (writer k text o) := by
  unfold Fmt.writer
  split
  · exact .ok hr
  · exact S.writerLoop _ _ _ _ hr

theorem Simulates.longLoop (S : Simulates h k R) : ∀ (fuel : Nat) (b : Str) (s : σ) (o : τ), R s o →
    RRel R (longLoop h fuel b s) (longLoop k fuel b o)
  | fuel, [], s, o, hr => by
    have e1 : Fmt.longLoop h fuel [] s = .ok s := by cases fuel <;> rfl
    have e2 : Fmt.longLoop k fuel [] o = .ok o := by cases fuel <;> rfl
    rw [e1, e2]; exact .ok hr
  | 0, c :: b, s, o, hr => .ub
  | fuel + 1, c :: r, s, o, hr => by
    simp only [Fmt.longLoop]
    have next : ∀ x y : Str × σ, True := fun _ _ => trivial
    split
    · refine (S.writer _ hr).bind fun s1 o1 _ h1 => ?_
      refine (S.field _ h1).bind fun a b _ hab => ?_
      obtain ⟨i, s1⟩ := a
      obtain ⟨j, o1⟩ := b
      obtain ⟨rfl, hab⟩ := hab
      exact S.longLoop fuel _ _ _ hab
    · cases find '{' r with
      | none => exact S.writer _ hr
      | some x =>
        obtain ⟨before, rest⟩ := x
        simp only
        refine (S.writer _ hr).bind fun s1 o1 _ h1 => ?_
        refine (S.field _ h1).bind fun a b _ hab => ?_
        obtain ⟨i, s1⟩ := a
        obtain ⟨j, o1⟩ := b
        obtain ⟨rfl, hab⟩ := hab
        exact S.longLoop fuel _ _ _ hab

theorem Simulates.parse (S : Simulates h k R) (fmt : Str) {s : σ} {o : τ} (hr : R s o) :
    RRel R (parseFormatString h fmt s) (parseFormatString k fmt o) := by
  unfold parseFormatString
  split
  · exact S.shortLoop _ _ _ _ _ hr
  · exact S.longLoop _ _ _ _ hr

/-! ## The handler -/

/-- the state of the handler and what was done to the buffer -/
def Same (s : HSt) (o : OSt) : Prop := s.next = o.next ∧ Writes s.out o.out

theorem getArg_mem {a : Args} {i : Nat} {v : Arg} (h : getArg a i = .ok v) : v ∈ a.values := by
  have key : ∀ o, a.get i = .ok (some o) → o ∈ a.values := by
    intro o h
    unfold Args.get at h
    simp only at h
    split at h
    · split at h
      · cases hv : a.values[i]? with
        | none => rw [hv] at h; nomatch h
        | some v => rw [hv] at h; cases h; exact List.mem_of_getElem? hv
      · nomatch h
    split at h
    · nomatch h
    split at h
    · nomatch h
    · cases hv : a.values[i]? with
      | none => rw [hv] at h; nomatch h
      | some v =>
        rw [hv] at h
        simp only at h
        split at h
        · cases h; exact List.mem_of_getElem? hv
        · nomatch h
  unfold getArg at h
  cases hg : a.get i with
  | err m => rw [hg] at h; nomatch h
  | ub => rw [hg] at h; nomatch h
  | ok o =>
    rw [hg] at h
    cases o with
    | none => nomatch h
    | some o => cases h; exact key _ hg

theorem handler_simulates (a : Args) (ha : ∀ v ∈ a.values, ArgOk v) : Simulates (formatHandler a) (formatHandlerOps a) Same where
  onText t s o h := .ok ⟨h.1, h.2.append (writeText_writes t)⟩
  onArgId id s o h := by
    cases id with
    | auto =>
      simp only [formatHandler, formatHandlerOps]
      rw [h.1]
      exact RRel.same _ fun x _ => .ok ⟨rfl, rfl, h.2⟩
    | index n =>
      simp only [formatHandler, formatHandlerOps]
      rw [h.1]
      exact RRel.same _ fun x _ => .ok ⟨rfl, rfl, h.2⟩
    | name t =>
      simp only [formatHandler, formatHandlerOps]
      cases a.getId t with
      | none => exact .err _
      | some i => exact .ok ⟨rfl, h⟩
  onReplacementField i s o h := by
    simp only [formatHandler, formatHandlerOps]
    refine RRel.same _ fun v _ => (writeDefault_writes v).bind fun t ops _ ht => .ok ⟨h.1, h.2.append ht⟩
  onFormatSpecs i b s o h := by
    simp only [formatHandler, formatHandlerOps, onFormatSpecs, onFormatSpecsOps]
    refine RRel.same _ fun v hv => ?_
    have hok := ha v (getArg_mem hv)
    rw [h.1]
    cases v with
    | custom f => exact RRel.same _ fun x _ => .ok ⟨rfl, rfl, h.2.append (append_writes _)⟩
    | _ =>
      refine RRel.same _ fun x _ => RRel.same _ fun w _ => RRel.same _ fun p _ => ?_
      cases x.2.1 with
      | nil => exact .err _
      | cons c q =>
        simp only
        split
        · exact .err _
        · exact (writeSpecs_writes _ _ hok).bind fun t ops _ ht => .ok ⟨rfl, rfl, h.2.append ht⟩

theorem vformatTo_ops (fmt : Str) (a : Args) (ha : ∀ v ∈ a.values, ArgOk v) :
    RRel Writes (vformatTo fmt a) (vformatToOps fmt a) := by
  unfold vformatTo vformatToOps
  split
  · exact RRel.same _ fun v _ => writeDefault_writes v
  · exact ((handler_simulates a ha).parse fmt (s := ⟨0, []⟩) (o := ⟨0, []⟩) ⟨rfl, rfl, trivial⟩).bind
      fun s o _ h => .ok h.2

/-- What `format` gives is what the operations on a buffer write. -/
theorem ops_of_format {l : List (Option Str × Arg)} (hok : ∀ p ∈ l, ArgOk p.2) {fmt : Str} :
    (∀ t, format fmt l = .ok t → ∃ ops, vformatToOps fmt (makeArgs l) = .ok ops ∧ opsText ops = t ∧ Exact ops) ∧
    (∀ m, format fmt l = .err m → vformatToOps fmt (makeArgs l) = .err m) := by
  have h := vformatTo_ops fmt (makeArgs l) (by
    intro v hv
    obtain ⟨p, hp, rfl⟩ := List.mem_map.mp hv
    exact hok p hp)
  unfold format
  cases h1 : vformatTo fmt (makeArgs l) <;> rw [h1] at h
  · cases h2 : vformatToOps fmt (makeArgs l) <;> rw [h2] at h
    · cases h with
      | ok h => exact ⟨fun t ht => by cases ht; exact ⟨_, rfl, h.1.symm, h.2⟩, nofun⟩
    · nomatch h
    · nomatch h
  · cases h2 : vformatToOps fmt (makeArgs l) <;> rw [h2] at h
    · nomatch h
    · cases h
      exact ⟨nofun, fun m h => by cases h; rfl⟩
    · nomatch h
  · exact ⟨nofun, nofun⟩

end Fmt
end Efp
