import Verif.Fmt.BufferLemmas

/-!
# Helper lemmas: the buffers behind `format_to`, `format_to_n` and `formatted_size`
-/

namespace Efp
namespace Fmt

theorem storeList_eq {i : Nat} {c : Char} {l : List Char} (h : i < l.length) : storeList i c l = .ok (l.set i c) := if_pos h

theorem take_set_succ {α : Type} (l : List α) (i : Nat) (c : α) (h : i < l.length) :
    (l.set i c).take (i + 1) = l.take i ++ [c] := by
  rw [List.take_succ_eq_append_getElem (by rw [List.length_set]; exact h), List.getElem_set_self,
    List.take_set_of_le (Nat.le_refl i)]

theorem bs : bufferSize = 256 := rfl

/-! ## Counting -/

def Counting.Inv (b : Buf Counting) (t : Str) : Prop :=
  b.capacity = bufferSize ∧ b.rest.data.length = bufferSize ∧ b.size ≤ bufferSize ∧ b.rest.count + b.size = t.length ∧
    t.length < 2 ^ 64

theorem Counting.law : Counting.kind.Law Counting.Inv False 0 (2 ^ 64 - 1) (2 ^ 64 - 1) where
  lim_lt := by omega
  lim_req := Nat.le_refl _
  size_le b t h := by
    obtain ⟨h1, h2, h3, h4, h5⟩ := h
    rw [bs] at *
    omega
  grow b t n h _ _ _ := by
    obtain ⟨h1, h2, h3, h4, h5⟩ := h
    left
    by_cases hs : b.size ≠ bufferSize
    · exact ⟨b, if_pos hs, ⟨h1, h2, h3, h4, h5⟩, by omega⟩
    · refine ⟨_, if_neg hs, ⟨h1, h2, Nat.zero_le _, ?_, h5⟩, ?_⟩
      · show wrap (b.rest.count + b.size) + 0 = _
        rw [wrap_eq (by omega)]; omega
      · show 0 < b.capacity
        rw [h1, bs]; omega
  store b t c h hs hl := by
    obtain ⟨h1, h2, h3, h4, h5⟩ := h
    refine ⟨{ b.rest with data := b.rest.data.set b.size c }, ?_, h1, ?_, ?_, ?_, ?_⟩
    · show (storeList b.size c b.rest.data).then _ _ = _
      rw [storeList_eq (by omega), Run.then_ok]
    · show (b.rest.data.set b.size c).length = _
      rw [List.length_set]; exact h2
    · show b.size + 1 ≤ _
      omega
    · show b.rest.count + (b.size + 1) = _
      rw [List.length_append, List.length_singleton]; omega
    · rw [List.length_append, List.length_singleton]; omega

theorem Counting.run (l : List Op) (junk : List Char) (hj : junk.length = bufferSize) (hl : (opsText l).length < 2 ^ 64) :
    ∃ b, runOps Counting.kind l (Counting.start junk) = .ok b ∧ Counting.total b = (opsText l).length := by
  obtain ⟨b, h1, h2⟩ := Counting.law.runOps_ok l (Counting.start junk) ⟨rfl, hj, Nat.zero_le _, rfl, by simp⟩
    (within_max _ _) (by omega)
  refine ⟨b, h1, ?_⟩
  obtain ⟨_, _, _, h4, h5⟩ := h2
  rw [Counting.total, wrap_eq (by omega), h4]

/-! ## In front of an output iterator -/

/-- the text that is passed on -/
def passed (limit : Option Nat) (t : Str) : Str :=
  match limit with
  | none => t
  | some l => t.take l

def Flushing.Inv (out : Str) (limit : Option Nat) (b : Buf Flushing) (t : Str) : Prop :=
  b.capacity = bufferSize ∧ b.rest.data.length = bufferSize ∧ b.size ≤ bufferSize ∧ b.rest.limit = limit ∧ t.length < 2 ^ 64 ∧
    ∃ t1, t = t1 ++ b.rest.data.take b.size ∧ b.rest.out = out ++ passed limit t1 ∧ (limit ≠ none → b.rest.count = t1.length)

theorem Flushing.flush_inv {out : Str} {limit : Option Nat} {b : Buf Flushing} {t : Str} (h : Inv out limit b t) :
    Inv out limit (flush b) t ∧ (flush b).size = 0 := by
  obtain ⟨h1, h2, h3, h4, h5, t1, h6, h7, h8⟩ := h
  refine ⟨⟨h1, h2, Nat.zero_le _, h4, h5, t, ?_, ?_, ?_⟩, rfl⟩
  · show t = t ++ List.take 0 _
    simp
  · show b.rest.out ++ b.rest.data.take (limitStep b.rest.limit b.rest.count b.size).1 = _
    rw [h7, h4, List.append_assoc, h6]
    congr 1
    cases limit with
    | none => rfl
    | some l =>
      rw [h8 (by nofun)]
      simp only [limitStep, passed, List.take_append]
      congr 1
      rw [List.take_take]
      congr 1
      split <;> split <;> omega
  · intro hn
    show (limitStep b.rest.limit b.rest.count b.size).2 = _
    rw [h4]
    cases limit with
    | none => exact absurd rfl hn
    | some l =>
      show wrap (b.rest.count + b.size) = _
      have e : t.length = t1.length + b.size := by
        rw [h6, List.length_append, List.length_take, Nat.min_eq_left (by omega)]
      rw [h8 hn, wrap_eq (by omega), e]

theorem Flushing.law (out : Str) (limit : Option Nat) :
    Flushing.kind.Law (Flushing.Inv out limit) False 0 (2 ^ 64 - 1) (2 ^ 64 - 1) where
  lim_lt := by omega
  lim_req := Nat.le_refl _
  size_le b t h := by
    obtain ⟨h1, h2, h3, h4, h5, t1, h6, h7, h8⟩ := h
    have e : t.length = t1.length + b.size := by
      rw [h6, List.length_append, List.length_take, Nat.min_eq_left (by omega)]
    rw [bs] at *
    omega
  grow b t n h _ _ _ := by
    left
    by_cases hs : b.size = bufferSize
    · have := Flushing.flush_inv h
      refine ⟨Flushing.flush b, congrArg Run.ok (if_pos hs), this.1, ?_⟩
      rw [this.2, this.1.1, bs]; omega
    · refine ⟨b, congrArg Run.ok (if_neg hs), h, ?_⟩
      have := h.1
      have := h.2.2.1
      omega
  store b t c h hs hl := by
    obtain ⟨h1, h2, h3, h4, h5, t1, h6, h7, h8⟩ := h
    refine ⟨{ b.rest with data := b.rest.data.set b.size c }, ?_, h1, ?_, ?_, h4, ?_, t1, ?_, h7, h8⟩
    · show (storeList b.size c b.rest.data).then _ _ = _
      rw [storeList_eq (by omega), Run.then_ok]
    · show (b.rest.data.set b.size c).length = _
      rw [List.length_set]; exact h2
    · show b.size + 1 ≤ _
      omega
    · rw [List.length_append, List.length_singleton]; omega
    · show t ++ [c] = t1 ++ (b.rest.data.set b.size c).take (b.size + 1)
      rw [take_set_succ _ _ _ (by omega), ← List.append_assoc, ← h6]

theorem Flushing.run (l : List Op) (out : Str) (limit : Option Nat) (junk : List Char) (hj : junk.length = bufferSize)
    (hl : (opsText l).length < 2 ^ 64) :
    ∃ b, runOps Flushing.kind l (Flushing.start out limit junk) = .ok b ∧
      (Flushing.flush b).rest.out = out ++ passed limit (opsText l) ∧
      (limit ≠ none → wrap ((Flushing.flush b).rest.count + (Flushing.flush b).size) = (opsText l).length) := by
  obtain ⟨b, h1, h2⟩ := (Flushing.law out limit).runOps_ok l (Flushing.start out limit junk)
    ⟨rfl, hj, Nat.zero_le _, rfl, by simp, [], rfl, by cases limit <;> simp [passed, Flushing.start], fun _ => rfl⟩
    (within_max _ _) (by omega)
  refine ⟨b, h1, ?_⟩
  obtain ⟨⟨_, _, _, _, _, t1, h6, h7, h8⟩, h9⟩ := Flushing.flush_inv h2
  rw [h9, List.take_zero, List.append_nil] at h6
  rw [h6]
  exact ⟨h7, fun hn => by rw [h9, h8 hn, wrap_eq (by rw [← h6]; exact hl)]; rfl⟩

/-! ## Into an array, with a limit -/

/-- the array with text written at an offset -/
def overwrite (a : List Char) (off : Nat) (t : Str) : List Char := a.take off ++ t ++ a.drop (off + t.length)

theorem overwrite_nil (a : List Char) (off : Nat) : overwrite a off [] = a := by
  simp [overwrite]

theorem overwrite_length {a : List Char} {off : Nat} {t : Str} (h : off + t.length ≤ a.length) :
    (overwrite a off t).length = a.length := by
  simp only [overwrite, List.length_append, List.length_take, List.length_drop]; omega

theorem overwrite_set {a : List Char} {off : Nat} {t : Str} {c : Char} (h : off + t.length < a.length) :
    (overwrite a off t).set (off + t.length) c = overwrite a off (t ++ [c]) := by
  have e : (a.take off ++ t).length = off + t.length := by
    rw [List.length_append, List.length_take]; omega
  rw [overwrite, overwrite, List.set_append_right _ _ (by omega), e, Nat.sub_self, ← List.append_assoc (a.take off),
    List.append_assoc (_ ++ t) [c]]
  congr 1
  rw [List.drop_eq_getElem_cons h, List.set_cons_zero, List.length_append, List.length_singleton, ← Nat.add_assoc]
  rfl

def Fixed.Inv (a : List Char) (off n : Nat) (b : Buf Fixed) (t : Str) : Prop :=
  off + n ≤ a.length ∧ n < 2 ^ 64 ∧ t.length < 2 ^ 64 ∧ b.rest.data.length = bufferSize ∧ b.rest.limit = n ∧
  ((b.rest.atOut = true ∧ b.capacity = n ∧ b.rest.out = off ∧ b.rest.count = 0 ∧ b.size = t.length ∧ b.size ≤ n ∧
      b.rest.array = overwrite a off t) ∨
    (b.rest.atOut = false ∧ b.capacity = bufferSize ∧ b.rest.out = off + n ∧ b.rest.count + b.size = t.length ∧
      n ≤ b.rest.count ∧ b.size ≤ bufferSize ∧ b.rest.array = overwrite a off (t.take n)))

theorem Fixed.flush_full {a : List Char} {off n : Nat} {b : Buf Fixed} {t : Str} (h : Inv a off n b t)
    (hs : b.size = b.capacity) : Inv a off n (flush b) t ∧ (flush b).size < (flush b).capacity := by
  obtain ⟨h0, hn, h1, h2, h3, h4⟩ := h
  rcases h4 with ⟨h4, h5, h6, h7, h8, h9, h10⟩ | ⟨h4, h5, h6, h7, h8, h9, h10⟩
  · have e : flush b = ⟨0, bufferSize, { b.rest with
        out := b.rest.out + (limitStep (some b.rest.limit) b.rest.count b.size).1
        atOut := false
        count := (limitStep (some b.rest.limit) b.rest.count b.size).2 }⟩ := if_pos h4
    have e1 : (limitStep (some b.rest.limit) b.rest.count b.size).1 = n := by
      simp only [limitStep, h3, h7]; split <;> split <;> omega
    have e2 : (limitStep (some b.rest.limit) b.rest.count b.size).2 = n := by
      simp only [limitStep, h7]; rw [wrap_eq (by omega)]; omega
    rw [e, e1, e2, h6]
    have ht : t.length = n := by omega
    refine ⟨⟨h0, hn, h1, h2, h3, .inr ⟨rfl, rfl, rfl, ?_, Nat.le_refl _, Nat.zero_le _, ?_⟩⟩, ?_⟩
    · show n + 0 = _
      omega
    · show b.rest.array = _
      rw [h10, ← ht, List.take_length]
    · show 0 < bufferSize
      decide
  · have e : flush b = ⟨0, b.capacity, { b.rest with count := (limitStep (some b.rest.limit) b.rest.count b.size).2 }⟩ :=
      if_neg (by rw [h4]; decide)
    have e2 : (limitStep (some b.rest.limit) b.rest.count b.size).2 = t.length := by
      simp only [limitStep]; rw [wrap_eq (by omega)]; omega
    rw [e, e2]
    refine ⟨⟨h0, hn, h1, h2, h3, .inr ⟨h4, h5, h6, rfl, ?_, Nat.zero_le _, h10⟩⟩, ?_⟩
    · show n ≤ t.length
      omega
    · show 0 < b.capacity
      rw [h5]; decide

theorem Fixed.law (a : List Char) (off n : Nat) :
    Fixed.kind.Law (Fixed.Inv a off n) False 0 (2 ^ 64 - 1) (2 ^ 64 - 1) where
  lim_lt := by omega
  lim_req := Nat.le_refl _
  size_le b t h := by
    obtain ⟨h0, hn, h1, h2, h3, h4⟩ := h
    rcases h4 with ⟨h4, h5, h6, h7, h8, h9, h10⟩ | ⟨h4, h5, h6, h7, h8, h9, h10⟩
    · omega
    · rw [bs] at *
      omega
  grow b t m h _ _ _ := by
    left
    by_cases hs : b.size = b.capacity
    · have := Fixed.flush_full h hs
      exact ⟨Fixed.flush b, congrArg Run.ok (if_pos hs), this⟩
    · refine ⟨b, congrArg Run.ok (if_neg hs), h, ?_⟩
      obtain ⟨h0, hn, h1, h2, h3, h4⟩ := h
      rcases h4 with ⟨h4, h5, h6, h7, h8, h9, h10⟩ | ⟨h4, h5, h6, h7, h8, h9, h10⟩ <;> omega
  store b t c h hs hl := by
    obtain ⟨h0, hn, h1, h2, h3, h4⟩ := h
    have e : (t ++ [c]).length = t.length + 1 := by rw [List.length_append, List.length_singleton]
    rcases h4 with ⟨h4, h5, h6, h7, h8, h9, h10⟩ | ⟨h4, h5, h6, h7, h8, h9, h10⟩
    · refine ⟨{ b.rest with array := b.rest.array.set (b.rest.out + b.size) c }, ?_, h0, hn, by omega, h2, h3,
        .inl ⟨h4, h5, h6, h7, ?_, ?_, ?_⟩⟩
      · have e : Fixed.kind.store b.size c b.rest = (storeList (b.rest.out + b.size) c b.rest.array).then
          (fun d => { b.rest with array := d }) fun d => .ok { b.rest with array := d } := if_pos h4
        rw [e, storeList_eq, Run.then_ok]
        rw [h10, overwrite_length (by omega)]; omega
      · show b.size + 1 = _
        omega
      · show b.size + 1 ≤ n
        omega
      · show b.rest.array.set (b.rest.out + b.size) c = _
        rw [h10, h6, h8, overwrite_set (by omega)]
    · refine ⟨{ b.rest with data := b.rest.data.set b.size c }, ?_, h0, hn, by omega, ?_, h3,
        .inr ⟨h4, h5, h6, ?_, h8, ?_, ?_⟩⟩
      · have e : Fixed.kind.store b.size c b.rest = (storeList b.size c b.rest.data).then
          (fun d => { b.rest with data := d }) fun d => .ok { b.rest with data := d } := if_neg (by rw [h4]; decide)
        rw [e, storeList_eq (by omega), Run.then_ok]
      · show (b.rest.data.set b.size c).length = _
        rw [List.length_set]; exact h2
      · show b.rest.count + (b.size + 1) = _
        omega
      · show b.size + 1 ≤ _
        omega
      · show b.rest.array = _
        rw [h10, List.take_append_of_le_length (by omega)]

theorem Fixed.run (l : List Op) (a : List Char) (off n : Nat) (ha : off + n ≤ a.length) (hn : n < 2 ^ 64) (junk : List Char)
    (hj : junk.length = bufferSize) (hl : (opsText l).length < 2 ^ 64) :
    ∃ b, runOps Fixed.kind l (Fixed.start a off n junk) = .ok b ∧
      (Fixed.flush b).rest.array = overwrite a off ((opsText l).take n) ∧
      (Fixed.flush b).rest.out = off + min n (opsText l).length ∧
      wrap ((Fixed.flush b).rest.count + (Fixed.flush b).size) = (opsText l).length := by
  obtain ⟨b, h1, h2⟩ := (Fixed.law a off n).runOps_ok l (Fixed.start a off n junk)
    ⟨ha, hn, by simp, hj, rfl, .inl ⟨rfl, rfl, rfl, rfl, rfl, Nat.zero_le _, (overwrite_nil _ _).symm⟩⟩
    (within_max _ _) (by omega)
  refine ⟨b, h1, ?_⟩
  obtain ⟨h0, hn, h1, h2, h3, h4⟩ := h2
  rcases h4 with ⟨h4, h5, h6, h7, h8, h9, h10⟩ | ⟨h4, h5, h6, h7, h8, h9, h10⟩
  · have e : flush b = ⟨0, bufferSize, { b.rest with
        out := b.rest.out + (limitStep (some b.rest.limit) b.rest.count b.size).1
        atOut := false
        count := (limitStep (some b.rest.limit) b.rest.count b.size).2 }⟩ := if_pos h4
    rw [e]
    refine ⟨?_, ?_, ?_⟩
    · show b.rest.array = _
      rw [h10, List.take_of_length_le (by omega)]
    · show b.rest.out + _ = _
      rw [h6]
      simp only [limitStep, h3, h7]; split <;> split <;> omega
    · show wrap (wrap (b.rest.count + b.size) + 0) = _
      rw [Nat.add_zero, wrap_eq (wrap_lt _), wrap_eq (by omega)]; omega
  · have e : flush b = ⟨0, b.capacity, { b.rest with count := (limitStep (some b.rest.limit) b.rest.count b.size).2 }⟩ :=
      if_neg (by rw [h4]; decide)
    rw [e]
    refine ⟨h10, ?_, ?_⟩
    · show b.rest.out = _
      omega
    · show wrap (wrap (b.rest.count + b.size) + 0) = _
      rw [Nat.add_zero, wrap_eq (wrap_lt _), wrap_eq (by omega)]; omega

/-! ## Into an array, without a limit -/

def Raw.Inv (a : List Char) (off : Nat) (b : Buf Raw) (t : Str) : Prop :=
  b.capacity = 2 ^ 64 - 1 ∧ b.rest.out = off ∧ b.size = t.length ∧ t.length ≤ 2 ^ 64 - 1 ∧ off + t.length ≤ a.length ∧
    b.rest.array = overwrite a off t

theorem Raw.law (a : List Char) (off : Nat) (ha : a.length < 2 ^ 64) :
    Raw.kind.Law (Raw.Inv a off) False off a.length (2 ^ 64 - 1) where
  lim_lt := ha
  lim_req := by omega
  size_le b t h := by
    obtain ⟨h1, h2, h3, h4, h5, h6⟩ := h
    omega
  grow b t n h hn hn' _ := by
    have := h.1
    omega
  store b t c h hs hl := by
    obtain ⟨h1, h2, h3, h4, h5, h6⟩ := h
    have e : (t ++ [c]).length = t.length + 1 := by rw [List.length_append, List.length_singleton]
    refine ⟨{ b.rest with array := b.rest.array.set (b.rest.out + b.size) c }, ?_, h1, h2, ?_, by omega, by omega, ?_⟩
    · show (storeList (b.rest.out + b.size) c b.rest.array).then _ _ = _
      rw [storeList_eq, Run.then_ok]
      rw [h6, overwrite_length (by omega)]; omega
    · show b.size + 1 = _
      omega
    · show b.rest.array.set (b.rest.out + b.size) c = _
      rw [h6, h2, h3, overwrite_set (by omega)]

theorem Raw.run (l : List Op) (a : List Char) (off : Nat) (ha : a.length < 2 ^ 64) (hl : off + (opsText l).length ≤ a.length) :
    ∃ b, runOps Raw.kind l (Raw.start a off) = .ok b ∧ b.rest.array = overwrite a off (opsText l) ∧
      b.rest.out + b.size = off + (opsText l).length := by
  obtain ⟨b, h1, h2⟩ := (Raw.law a off ha).runOps_ok l (Raw.start a off)
    ⟨rfl, rfl, rfl, Nat.zero_le _, by simp; omega, (overwrite_nil _ _).symm⟩ (within_max _ _) hl
  refine ⟨b, h1, ?_⟩
  obtain ⟨h1, h2, h3, h4, h5, h6⟩ := h2
  exact ⟨h6, by omega⟩

/-! ## Into a container -/

def Into.Inv (e : List Char) (lim : Nat) (b : Buf Into) (t : Str) : Prop :=
  b.size = e.length + t.length ∧ b.size ≤ b.capacity ∧ b.capacity ≤ lim ∧ b.rest.container.size = b.capacity ∧
    b.capacity ≤ b.rest.container.storage.length ∧ b.rest.container.storage.take b.size = e ++ t ∧
    (b.size < b.capacity → b.rest.ptr = some b.rest.container.replaced)

theorem Into.law (junk : Nat → Char) (e : List Char) (lim : Nat) (hlim : lim < 2 ^ 64) :
    (Into.kind junk).Law (Into.Inv e lim) False e.length lim lim where
  lim_lt := hlim
  lim_req := Nat.le_refl _
  size_le b t h := by
    obtain ⟨h1, h2, h3, h4, h5, h6, h7⟩ := h
    omega
  grow b t n h hn _ hr := by
    obtain ⟨h1, h2, h3, h4, h5, h6, h7⟩ := h
    left
    refine ⟨_, rfl, ⟨h1, ?_, hr, ?_, ?_, ?_, fun _ => rfl⟩, ?_⟩
    · show b.size ≤ n
      omega
    · show (b.rest.container.resize junk n).size = n
      rw [Container.resize]; split <;> rfl
    · show n ≤ (b.rest.container.resize junk n).storage.length
      rw [Container.resize]; split
      · simp only [List.length_append, List.length_take, List.length_map, List.length_range]; omega
      · show n ≤ b.rest.container.storage.length
        omega
    · show (b.rest.container.resize junk n).storage.take b.size = _
      rw [Container.resize]; split
      · show (_ ++ _ : List Char).take b.size = _
        rw [List.take_append_of_le_length (by rw [List.length_take]; omega), List.take_take, Nat.min_eq_left (by omega)]
        exact h6
      · exact h6
    · show b.size < n
      omega
  store b t c h hs hl := by
    obtain ⟨h1, h2, h3, h4, h5, h6, h7⟩ := h
    have hst : b.size < b.rest.container.storage.length := by omega
    refine ⟨_, if_pos ⟨h7 hs, hst⟩, ?_, ?_, h3, h4, ?_, ?_, fun _ => h7 hs⟩
    · show b.size + 1 = _
      rw [List.length_append, List.length_singleton]; omega
    · show b.size + 1 ≤ b.capacity
      omega
    · show b.capacity ≤ (b.rest.container.storage.set b.size c).length
      rw [List.length_set]; exact h5
    · show (b.rest.container.storage.set b.size c).take (b.size + 1) = _
      rw [take_set_succ _ _ _ hst, h6, List.append_assoc]

/-- every reservation is used up by the text written after it -/
def Exact : List Op → Prop
  | [] => True
  | .reserve n :: l => n ≤ (opsText l).length ∧ Exact l
  | _ :: l => Exact l

theorem exact_within (lim : Nat) (hlim : lim < 2 ^ 64) : ∀ (l : List Op) (m : Nat), Exact l →
    m + (opsText l).length = lim → Within lim m l
  | [], _, _, _ => trivial
  | o :: l, m, h, hm => by
    have e : opsText (o :: l) = o.text ++ opsText l := rfl
    rw [e, List.length_append] at hm
    refine ⟨?_, exact_within lim hlim l _ ?_ (by omega)⟩
    · cases o with
      | reserve n =>
        have : n ≤ (opsText l).length := h.1
        exact .inl ⟨by omega, hlim⟩
      | _ => trivial
    · cases o with
      | reserve n => exact h.2
      | _ => exact h

theorem Into.run (junk : Nat → Char) (l : List Op) (hx : Exact l) (c : Container) (hc : c.size ≤ c.storage.length)
    (hl : c.size + (opsText l).length < 2 ^ 64) :
    ∃ b, runOps (Into.kind junk) l (Into.start c) = .ok b ∧ b.rest.container.elems = c.elems ++ opsText l := by
  have he : c.elems.length = c.size := by rw [Container.elems, List.length_take]; omega
  obtain ⟨b, h1, h2⟩ := (Into.law junk c.elems (c.size + (opsText l).length) hl).runOps_ok l (Into.start c)
    ⟨by rw [he]; rfl, Nat.le_refl _, Nat.le_add_right _ _, rfl, hc, by rw [List.append_nil]; rfl,
      fun h => absurd h (Nat.lt_irrefl _)⟩
    (by rw [he]; exact exact_within _ hl l _ hx rfl) (by rw [he]; omega)
  refine ⟨b, h1, ?_⟩
  obtain ⟨h1, h2, h3, h4, h5, h6, h7⟩ := h2
  rw [he] at h1
  rw [Container.elems, h4, ← h6]
  congr 1
  omega

end Fmt
end Efp
