import Verif.StringLemmas2
import Verif.StringOwn
import Verif.Spec.StringOwn

/-!
# Runs of the members of a string given a pointer into its own text
-/

namespace Efp
namespace Str

open VecS Spec

/-- cells holding a text, a NUL and anything -/
def Term (s : Str) (l : List Nat) : Prop :=
  s.ptr = .block ∧ s.cap = s.cells.length ∧ s.size = l.length ∧ ∃ rest, s.cells = l.map .live ++ .live 0 :: rest

theorem Term.rep {s : Str} {l : List Nat} (h : Term s l) : Rep .trivial s l := by
  obtain ⟨hp, hc, hz, rest, hr⟩ := h
  exact rep_block hp hz hc hr (by simp)

theorem Term.lt {s : Str} {l : List Nat} (h : Term s l) : l.length < s.cap := by
  obtain ⟨hp, hc, hz, rest, hr⟩ := h
  rw [hc, hr]; simp

theorem cStr_term {s : Str} {l : List Nat} (h : Rep .trivial s l) (hc : l.length < s.cap) :
    ∃ t, cStr s = .ok () t ∧ Term t l ∧ t.cap = s.cap ∧ t.led = s.led := by
  have hsz := h.1
  obtain ⟨hp, c, rest, hcells, hcap, _⟩ := h.split_spare (by omega)
  have hm : s.toMem = ⟨l.map .live ++ c :: rest, s.led⟩ := toMem_eq hcells
  have h1 : cStr s = .ok () { s with cells := l.map .live ++ .live 0 :: rest } := by
    unfold cStr
    rw [onMem_block hp, hm, Mem.assign_mid (by simp [hsz]) (by simp)]; rfl
  refine ⟨_, h1, ⟨hp, ?_, hsz, rest, rfl⟩, rfl, rfl⟩
  simp only [hcap, hcells]; simp

theorem lenOwn_run (l : List Nat) (rest : List (Cell Nat)) :
    lenOwn (l.map .live ++ .live 0 :: rest) = .ok (cChars l).length := by
  induction l with
  | nil => rfl
  | cons a l ih =>
    simp only [List.map_cons, List.cons_append, lenOwn, ih, cChars, List.takeWhile_cons]
    by_cases ha : a = 0
    · simp [ha]
    · simp [ha, Except.map]

theorem Term.len {s : Str} {l : List Nat} (h : Term s l) {off : Nat} (ho : off ≤ l.length) :
    lenOwn (s.cells.drop off) = .ok (cChars (l.drop off)).length := by
  obtain ⟨_, _, _, rest, hr⟩ := h
  rw [hr, List.drop_append_of_le_length (by simpa using ho), ← List.map_drop, lenOwn_run]

theorem cChars_len_le (l : List Nat) : (cChars l).length ≤ l.length := by
  obtain ⟨t, ht⟩ := cChars_prefix l
  have := congrArg List.length ht
  simp at this; omega

/-! ### append -/

theorem ownPush_ok {s : Str} {l : List Nat} (h : Rep .trivial s l) {i : Nat} (hi : i < l.length)
    (hg : s.size + 1 < s.cap) :
    ∃ t, pushBackOwn .trivial i s = .ok () t ∧ Rep .trivial t (l ++ [l[i]]) ∧ t.cap = s.cap := by
  obtain ⟨t, ht, hr, hc, hp, hled⟩ := construct_back h (a := l[i]) (by omega)
  refine ⟨t, ?_, hr, hc⟩
  unfold pushBackOwn
  rw [Cpp.bind_ok (Cpp.get_run _), Cpp.bind_ok (growPush_run h), Cpp.bind_ok (Cpp.get_run _),
    if_neg (show ¬ (s.size + 1 ≥ s.cap) by omega), if_neg (by simp)]
  have := at_rep h hi
  unfold at_ at this
  rw [Cpp.bind_ok this, ht]

theorem ownPush_ub {s : Str} {l : List Nat} (h : Rep .trivial s l) (i : Nat) (hg : s.cap ≤ s.size + 1) :
    pushBackOwn .trivial i s = .ub .wildPtr := by
  unfold pushBackOwn
  rw [Cpp.bind_ok (Cpp.get_run _), Cpp.bind_ok (growPush_run h), Cpp.bind_ok (Cpp.get_run _),
    if_pos (show s.size + 1 ≥ s.cap by omega), if_pos (by simp [afterRealloc])]

theorem ownPushes_ok (w : List Nat) {s : Str} {l : List Nat} (h : Rep .trivial s l) (off lo : Nat)
    (hw : ∀ i (hi : i < w.length), l[off + (lo + i)]? = some w[i]) (hg : l.length + w.length < s.cap) :
    ∃ t, forUp (fun i => pushBackOwn .trivial (off + i)) lo w.length s = .ok () t ∧ Rep .trivial t (l ++ w) := by
  induction w generalizing s l lo with
  | nil => exact ⟨s, rfl, by simpa using h⟩
  | cons a w ih =>
    have h0 := hw 0 (by simp)
    simp only [Nat.add_zero, List.getElem_cons_zero] at h0
    obtain ⟨hlt, he⟩ := List.getElem?_eq_some_iff.mp h0
    simp only [List.length_cons] at hg
    obtain ⟨t, ht, hr, hc⟩ := ownPush_ok h hlt (by have := h.1; omega)
    rw [he] at hr
    obtain ⟨u, hu, hur⟩ := ih hr (lo + 1) (fun i hi => by
      have := hw (i + 1) (by simpa using hi)
      simp only [List.getElem_cons_succ] at this
      rw [show off + (lo + 1 + i) = off + (lo + (i + 1)) by omega]
      obtain ⟨hlt', _⟩ := List.getElem?_eq_some_iff.mp this
      rw [List.getElem?_append_left hlt', this]) (by rw [hc]; simp; omega)
    refine ⟨u, ?_, by simpa using hur⟩
    rw [List.length_cons, forUp_succ, Cpp.bind_ok ht, hu]

theorem ownPushes_ub (n : Nat) {s : Str} {l : List Nat} (h : Rep .trivial s l) (off lo : Nat) (hn : 0 < n)
    (hw : off + (lo + n) ≤ l.length) (hg : s.cap ≤ l.length + n) :
    forUp (fun i => pushBackOwn .trivial (off + i)) lo n s = .ub .wildPtr := by
  induction n generalizing s l lo with
  | zero => omega
  | succ n ih =>
    have hsz := h.1
    rw [forUp_succ]
    by_cases hc : s.cap ≤ s.size + 1
    · exact Cpp.bind_ub (ownPush_ub h _ hc)
    · have hlt : off + lo < l.length := by omega
      obtain ⟨t, ht, hr, hcap⟩ := ownPush_ok h hlt (by omega)
      rw [Cpp.bind_ok ht]
      exact ih hr (lo + 1) (by omega) (by simp; omega) (by rw [hcap]; simp; omega)

/-! ### assign -/

/-- overwriting the front of the block with text further back, front to back -/
theorem ownFront_ok (w : List Nat) (off lo : Nat) (s : Str) (hp : s.ptr = .block) (hcap : s.cap = s.cells.length)
    (hsz : s.size = lo) (hg : lo + w.length < s.cap)
    (hw : ∀ i (hi : i < w.length), s.cells[off + (lo + i)]? = some (.live w[i])) :
    ∃ t, forUp (fun i => pushBackOwn .trivial (off + i)) lo w.length s = .ok () t ∧ t.ptr = .block ∧
      t.cap = t.cells.length ∧ t.size = lo + w.length ∧
      t.cells = s.cells.take lo ++ w.map .live ++ s.cells.drop (lo + w.length) := by
  induction w generalizing s lo with
  | nil => exact ⟨s, rfl, hp, hcap, by simpa using hsz, by simp⟩
  | cons a w ih =>
    simp only [List.length_cons] at hg
    have h0 := hw 0 (by simp)
    simp only [Nat.add_zero, List.getElem_cons_zero] at h0
    have hread : (onMem (Mem.read (off + lo)) : Cpp Str Nat) s = .ok a s := by
      rw [onMem_block hp]
      simp only [Mem.read, h0]; rfl
    have hcons : (onMem (Mem.construct s.size a) : Cpp Str Unit) s =
        .ok () { s with cells := s.cells.set lo (.live a), led := { s.led with made := s.led.made + 1 } } := by
      rw [onMem_block hp]
      simp only [Mem.construct, hsz]
      rw [if_pos (by omega)]; rfl
    have hpush : pushBackOwn .trivial (off + lo) s = .ok ()
        { s with cells := s.cells.set lo (.live a), led := { s.led with made := s.led.made + 1 }, size := lo + 1 } := by
      unfold pushBackOwn
      have hgp : growPush .trivial s = .ok () s := by
        unfold growPush
        rw [if_neg (by omega)]
      rw [Cpp.bind_ok (Cpp.get_run _), Cpp.bind_ok hgp, Cpp.bind_ok (Cpp.get_run _), if_neg (by simp),
        Cpp.bind_ok hread, Cpp.bind_ok hcons, Cpp.modify_run, hsz]
    obtain ⟨t, ht, h1, h2, h3, h4⟩ := ih (lo + 1)
      { s with cells := s.cells.set lo (.live a), led := { s.led with made := s.led.made + 1 }, size := lo + 1 }
      hp (by simpa using hcap) rfl (by simp; omega) (fun i hi => by
        have := hw (i + 1) (by simpa using hi)
        simp only [List.getElem_cons_succ] at this
        rw [show off + (lo + 1 + i) = off + (lo + (i + 1)) by omega]
        simp only
        rw [List.getElem?_set_ne (by omega), this])
    refine ⟨t, by rw [List.length_cons, forUp_succ, Cpp.bind_ok hpush, ht], h1, h2, by simp; omega, ?_⟩
    rw [h4]
    simp only
    have hlo : lo < s.cells.length := by omega
    rw [List.drop_set_of_lt (by omega), List.take_set, List.take_add_one, List.getElem?_eq_getElem hlo]
    simp only [Option.toList_some]
    rw [List.set_append_right _ _ (by simp; omega)]
    have : (lo - (s.cells.take lo).length) = 0 := by simp; omega
    rw [this]
    simp [Nat.add_comm, Nat.add_left_comm]

/-! ### insert -/

/-- the shift, cell by cell: everything in front of `pos + len` stays, the tail is copied up by `len` -/
theorem shift_exact (len : Nat) {l : List Nat} {s : Str} (hp : s.ptr = .block) {pos : Nat} (hpos : pos ≤ l.length)
    (hl : ∀ j (hj : j < l.length), s.cells[j]? = some (.live l[j])) (hfit : l.length + len ≤ s.cells.length) :
    ∃ C, forDown (shiftBody len) l.length (l.length - pos) s = .ok () { s with cells := C } ∧
      C.length = s.cells.length ∧ (∀ j, j < pos + len → C[j]? = s.cells[j]?) ∧
      (∀ j (hj : j < l.length), pos ≤ j → C[j + len]? = some (.live l[j])) := by
  obtain ⟨t, ht, C, rfl, h1, h2, h3⟩ := forDown_inv
    (body := shiftBody len)
    (fun i t => ∃ C, t = { s with cells := C } ∧ C.length = s.cells.length ∧
      (∀ j, j < i + len → C[j]? = s.cells[j]?) ∧
      (∀ j (hj : j < l.length), i ≤ j → C[j + len]? = some (.live l[j]))) l.length (l.length - pos) (by omega) s
    ⟨s.cells, rfl, rfl, fun _ _ => rfl, fun j hj hi => by omega⟩
    (by
      rintro i t hi1 hi2 ⟨C, rfl, hC, hlo, hhi⟩
      have hr : C[i - 1]? = some (.live l[i - 1]) := by rw [hlo _ (by omega), hl _ (by omega)]
      refine ⟨{ s with cells := C.set (i + len - 1) (.live l[i - 1]) }, ?_, _, rfl, by simpa using hC, ?_, ?_⟩
      · unfold shiftBody
        have h1 : at_ (i - 1) { s with cells := C } = .ok l[i - 1] { s with cells := C } := by
          unfold at_
          rw [onMem_block (s := { s with cells := C }) hp]
          simp only [Mem.read, hr]; rfl
        rw [Cpp.bind_ok h1, onMem_block (s := { s with cells := C }) hp]
        have : i + len - 1 < C.length := by omega
        simp only [Mem.assign, List.getElem?_eq_getElem this]
        simp
      · intro j hj
        rw [List.getElem?_set_ne (by omega), hlo j (by omega)]
      · intro j hj hij
        by_cases he : j = i - 1
        · subst he
          rw [show i - 1 + len = i + len - 1 by omega, List.getElem?_set_self (by omega)]
        · rw [List.getElem?_set_ne (by omega), hhi j hj (by omega)])
  rw [show l.length - (l.length - pos) = pos by omega] at h2 h3
  exact ⟨C, ht, h1, h2, h3⟩

/-- the character written in round `i` -/
def put (l : List Nat) (pos off n i : Nat) : Nat :=
  if off < pos then l.getD (off + i % (pos - off)) 0
  else if off + i < pos + n then l.getD (off + i) 0
  else l.getD (off + i - n) 0

theorem inserted_eq (l : List Nat) (pos off n : Nat) : inserted l pos off n = (List.range n).map (put l pos off n) := rfl

theorem writes_exact {l : List Nat} {s : Str} (hp : s.ptr = .block) {pos off n : Nat} (hpos : pos ≤ l.length)
    (hoff : off + n ≤ l.length) (orig : List (Cell Nat)) (hl : ∀ j (hj : j < l.length), orig[j]? = some (.live l[j]))
    (hlen : s.cells.length = orig.length) (hfit : l.length + n ≤ orig.length)
    (hlow : ∀ j, j < pos + n → s.cells[j]? = orig[j]?)
    (hhigh : ∀ j (hj : j < l.length), pos ≤ j → s.cells[j + n]? = some (.live l[j])) :
    ∃ D, forUp (writeOwn pos off s.led.alloc) 0 n s = .ok () { s with cells := D } ∧ D.length = s.cells.length ∧
      (∀ j, j < pos ∨ pos + n ≤ j → D[j]? = s.cells[j]?) ∧
      (∀ j, j < n → D[pos + j]? = some (.live (put l pos off n j))) := by
  obtain ⟨t, ht, D, rfl, h1, h2, h3⟩ := forUp_inv
    (body := writeOwn pos off s.led.alloc)
    (fun i t => ∃ D, t = { s with cells := D } ∧ D.length = s.cells.length ∧
      (∀ j, j < pos ∨ pos + i ≤ j → D[j]? = s.cells[j]?) ∧
      (∀ j, j < i → D[pos + j]? = some (.live (put l pos off n j)))) 0 n s
    ⟨s.cells, rfl, rfl, fun _ _ => rfl, fun j hj => by omega⟩
    (by
      rintro i t _ hi ⟨D, rfl, hD, hkeep, hput⟩
      have hr : D[off + i]? = some (.live (put l pos off n i)) := by
        unfold put
        by_cases h1 : off < pos
        · rw [if_pos h1]
          by_cases h2 : off + i < pos
          · rw [Nat.mod_eq_of_lt (by omega), hkeep _ (.inl h2), hlow _ (by omega), hl _ (by omega)]
            simp [show off + i < l.length by omega]
          · have := hput (off + i - pos) (by omega)
            rw [show pos + (off + i - pos) = off + i by omega] at this
            rw [this]
            unfold put
            rw [if_pos h1]
            have : (off + i - pos) % (pos - off) = i % (pos - off) := by
              conv => rhs; rw [show i = (off + i - pos) + (pos - off) by omega]
              rw [Nat.add_mod_right]
            rw [this]
        · rw [if_neg h1]
          rw [hkeep _ (.inr (by omega))]
          by_cases h2 : off + i < pos + n
          · rw [if_pos h2, hlow _ h2, hl _ (by omega)]
            simp [show off + i < l.length by omega]
          · rw [if_neg h2]
            have := hhigh (off + i - n) (by omega) (by omega)
            rw [show off + i - n + n = off + i by omega] at this
            rw [this]
            simp [show off + i - n < l.length by omega]
      refine ⟨{ s with cells := D.set (pos + i) (.live (put l pos off n i)) }, ?_, _, rfl, by simpa using hD, ?_, ?_⟩
      · unfold writeOwn
        rw [if_neg (by simp)]
        have h1 : (onMem (Mem.read (off + i)) : Cpp Str Nat) { s with cells := D } =
            .ok (put l pos off n i) { s with cells := D } := by
          rw [onMem_block (s := { s with cells := D }) hp]
          simp only [Mem.read, hr]; rfl
        rw [Cpp.bind_ok h1, onMem_block (s := { s with cells := D }) hp]
        have : pos + i < D.length := by omega
        simp only [Mem.assign, List.getElem?_eq_getElem this]
        simp
      · intro j hj
        rw [List.getElem?_set_ne (by omega), hkeep j (by omega)]
      · intro j hj
        by_cases he : j = i
        · subst he
          rw [List.getElem?_set_self (by omega)]
        · rw [List.getElem?_set_ne (by omega), hput j (by omega)])
  rw [Nat.zero_add] at h2 h3
  exact ⟨D, ht, h1, h2, h3⟩

theorem insertOwnAt_run {l : List Nat} {s : Str} (h : Rep .trivial s l) (hp : s.ptr = .block) {pos off n : Nat}
    (hpos : pos ≤ l.length) (hoff : off + n ≤ l.length) (hfit : l.length + n ≤ s.cap) :
    ∃ t, insertOwnAt pos off n s.led.alloc s = .ok () t ∧
      Rep .trivial t (l.take pos ++ inserted l pos off n ++ l.drop pos) := by
  have hsz := h.1
  obtain ⟨_, hn | ⟨_, hcap, rest, hcells, _⟩⟩ := h
  · rw [hn.1] at hp; cases hp
  have hl : ∀ j (hj : j < l.length), s.cells[j]? = some (.live l[j]) := by
    intro j hj
    rw [hcells, List.getElem?_append_left (by simpa using hj)]
    simp [hj]
  obtain ⟨C, hC, c1, c2, c3⟩ := shift_exact n hp hpos hl (by omega)
  obtain ⟨D, hD, d1, d2, d3⟩ := writes_exact (s := { s with cells := C }) hp hpos hoff s.cells hl c1 (by omega) c2 c3
  refine ⟨{ s with cells := D, size := s.size + n }, ?_, ?_⟩
  · unfold insertOwnAt
    rw [hsz, Cpp.bind_ok hC, Cpp.bind_ok hD, Cpp.modify_run, hsz]
  · have hil : (inserted l pos off n).length = n := by simp [inserted_eq]
    refine rep_block hp ?_ ?_ (rest := D.drop (l.length + n)) ?_ (by simp)
    · simp [hil]; omega
    · simp only at d1 ⊢; omega
    · simp only at d1 d2 d3 ⊢
      apply List.ext_getElem?
      intro j
      by_cases hj : j < l.length + n
      · rw [List.getElem?_append_left (by simp [hil]; omega), List.getElem?_map]
        by_cases j1 : j < pos
        · rw [d2 j (.inl j1), c2 j (by omega), hl j (by omega), List.append_assoc,
            List.getElem?_append_left (by simp; omega), List.getElem?_take_of_lt j1]
          simp [show j < l.length by omega]
        · by_cases j2 : j < pos + n
          · have := d3 (j - pos) (by omega)
            rw [show pos + (j - pos) = j by omega] at this
            rw [this, List.getElem?_append_left (by simp [hil]; omega), List.getElem?_append_right (by simp; omega)]
            rw [show (l.take pos).length = pos by simp; omega, inserted_eq]
            simp [show j - pos < n by omega]
          · have := c3 (j - n) (by omega) (by omega)
            rw [show j - n + n = j by omega] at this
            rw [d2 j (.inr (by omega)), this, List.getElem?_append_right (by simp [hil]; omega)]
            rw [show (l.take pos ++ inserted l pos off n).length = pos + n by simp [hil]; omega, List.getElem?_drop,
              show pos + (j - (pos + n)) = j - n by omega]
            simp [show j - n < l.length by omega]
      · rw [List.getElem?_append_right (by simp [hil]; omega)]
        rw [List.getElem?_drop]
        congr 1
        simp [hil]; omega

theorem insertOwnAt_stale {l : List Nat} {s : Str} (h : Rep .trivial s l) (hp : s.ptr = .block) {pos off n gen : Nat}
    (hpos : pos ≤ l.length) (hn : 0 < n) (hfit : l.length + n ≤ s.cap) (hg : s.led.alloc ≠ gen) :
    insertOwnAt pos off n gen s = .ub .wildPtr := by
  have hsz := h.1
  obtain ⟨_, hn' | ⟨_, hcap, rest, hcells, _⟩⟩ := h
  · rw [hn'.1] at hp; cases hp
  have hl : ∀ j (hj : j < l.length), s.cells[j]? = some (.live l[j]) := by
    intro j hj
    rw [hcells, List.getElem?_append_left (by simpa using hj)]
    simp [hj]
  obtain ⟨C, hC, c1, c2, c3⟩ := shift_exact n hp hpos hl (by omega)
  unfold insertOwnAt
  rw [hsz, Cpp.bind_ok hC]
  obtain ⟨m, rfl⟩ : ∃ m, n = m + 1 := ⟨n - 1, by omega⟩
  apply Cpp.bind_ub
  rw [forUp_succ]
  apply Cpp.bind_ub
  unfold writeOwn
  rw [if_pos hg]

theorem insertOwnAt_zero {l : List Nat} {s : Str} (h : Rep .trivial s l) (hp : s.ptr = .block) {pos off gen : Nat}
    (hpos : pos ≤ l.length) : ∃ t, insertOwnAt pos off 0 gen s = .ok () t ∧ Rep .trivial t l := by
  have hsz := h.1
  have hle := h.size_le_cap
  obtain ⟨_, hn' | ⟨_, hcap, rest, hcells, _⟩⟩ := h
  · rw [hn'.1] at hp; cases hp
  have hl : ∀ j (hj : j < l.length), s.cells[j]? = some (.live l[j]) := by
    intro j hj
    rw [hcells, List.getElem?_append_left (by simpa using hj)]
    simp [hj]
  obtain ⟨C, hC, c1, c2, c3⟩ := shift_exact 0 hp hpos hl (by omega)
  refine ⟨{ s with cells := C, size := s.size + 0 }, ?_, ?_⟩
  · unfold insertOwnAt
    rw [hsz, Cpp.bind_ok hC, forUp_zero, Cpp.pure_bind, Cpp.modify_run, hsz]
  · refine rep_block hp (by simpa using hsz) (by simp only; omega) (rest := C.drop l.length) ?_ (by simp)
    simp only
    apply List.ext_getElem?
    intro j
    by_cases hj : j < l.length
    · rw [List.getElem?_append_left (by simpa using hj)]
      by_cases j1 : j < pos
      · rw [c2 j (by omega), hl j hj]; simp [hj]
      · have := c3 j hj (by omega)
        rw [Nat.add_zero] at this
        rw [this]; simp [hj]
    · rw [List.getElem?_append_right (by simp; omega), List.getElem?_drop]
      congr 1
      simp; omega

/-! ### the piece a client expects -/

theorem piece_length {l : List Nat} {off n : Nat} (h : off + n ≤ l.length) : (piece l off n).length = n := by
  simp [piece]; omega

theorem inserted_right {l : List Nat} {pos off n : Nat} (h : off + n ≤ l.length) (hr : off + n ≤ pos ∨ off = pos) :
    inserted l pos off n = piece l off n := by
  apply List.ext_getElem (by rw [piece_length h, inserted_eq]; simp)
  intro i h1 h2
  rw [piece_length h] at h2
  simp only [inserted_eq, List.getElem_map, List.getElem_range, piece, List.getElem_take, List.getElem_drop, put]
  rcases hr with hr | hr
  · rw [if_pos (by omega), Nat.mod_eq_of_lt (by omega)]
    simp [show off + i < l.length by omega]
  · rw [if_neg (by omega), if_pos (by omega)]
    simp [show off + i < l.length by omega]

theorem inserted_wrong {l : List Nat} {pos off n : Nat} (h : off + n ≤ l.length) (hn : 0 < n) (hd : l.Nodup)
    (hr : ¬ (off + n ≤ pos ∨ off = pos)) : inserted l pos off n ≠ piece l off n := by
  intro he
  have key : ∀ i, i < n → put l pos off n i = l.getD (off + i) 0 := by
    intro i hi
    have h1 : (inserted l pos off n)[i]? = (piece l off n)[i]? := by rw [he]
    simp only [inserted_eq, List.getElem?_map, List.getElem?_range hi, Option.map_some, piece,
      List.getElem?_take_of_lt hi, List.getElem?_drop] at h1
    rw [List.getElem?_eq_getElem (by omega)] at h1
    simp only [Option.some.injEq] at h1
    rw [h1]; simp [show off + i < l.length by omega]
  have inj : ∀ a b, a < l.length → b < l.length → l.getD a 0 = l.getD b 0 → a = b := by
    intro a b ha hb hab
    simp only [List.getD_eq_getElem?_getD, List.getElem?_eq_getElem ha, List.getElem?_eq_getElem hb,
      Option.getD_some] at hab
    exact (List.getElem?_inj ha hd).mp (by rw [List.getElem?_eq_getElem ha, List.getElem?_eq_getElem hb, hab])
  by_cases h1 : off < pos
  · have h2 := key (pos - off) (by omega)
    unfold put at h2
    rw [if_pos h1, Nat.mod_self] at h2
    have := inj _ _ (by omega) (by omega) h2
    omega
  · by_cases h2 : off < pos + n
    · have h3 := key (pos + n - off) (by omega)
      unfold put at h3
      rw [if_neg h1, if_neg (by omega)] at h3
      have := inj _ _ (by omega) (by omega) h3
      omega
    · have h3 := key 0 hn
      unfold put at h3
      rw [if_neg h1, if_neg (by omega)] at h3
      have := inj _ _ (by omega) (by omega) h3
      omega

end Str
end Efp
