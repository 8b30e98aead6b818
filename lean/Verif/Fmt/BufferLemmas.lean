import Verif.Fmt.Buffer

/-!
# Helper lemmas: what a buffer has received
-/

namespace Efp
namespace Fmt

theorem wrap_eq {n : Nat} (h : n < 2 ^ 64) : wrap n = n := by
  rw [wrap]; exact Nat.mod_eq_of_lt h

theorem wrap_lt (n : Nat) : wrap n < 2 ^ 64 := by
  rw [wrap]; omega

theorem wrapSub_eq {m n : Nat} (h : n ≤ m) (hm : m < 2 ^ 64) : wrapSub m n = m - n := by
  rw [wrapSub]; omega

@[simp] theorem Run.then_ok {σ τ : Type} (s : σ) (k : σ → τ) (f : σ → Run τ) : (Run.ok s).then k f = f s := rfl
@[simp] theorem Run.then_threw {σ τ : Type} (s : σ) (k : σ → τ) (f : σ → Run τ) : (Run.threw s).then k f = .threw (k s) := rfl
@[simp] theorem Run.andThen_ok {σ : Type} (s : σ) (f : σ → Run σ) : (Run.ok s).andThen f = f s := rfl
@[simp] theorem Run.andThen_threw {σ : Type} (s : σ) (f : σ → Run σ) : (Run.threw s).andThen f = .threw s := rfl

/-- the text an operation writes -/
def Op.text : Op → Str
  | .push c => [c]
  | .append t => t
  | .reserve _ => []
  | .direct pushed t => pushed ++ t

/-- the text operations write -/
def opsText (l : List Op) : Str := l.flatMap Op.text

/-- the operation does not ask for space past `req` when `m` bytes have been received -/
def Op.Within (req m : Nat) : Op → Prop
  | .reserve n => m + n ≤ req ∧ req < 2 ^ 64 ∨ 2 ^ 64 ≤ req + 1
  | _ => True

/-- no operation asks for space past `req`, when `m` bytes have been received before them -/
def Within (req : Nat) : Nat → List Op → Prop
  | _, [] => True
  | m, o :: l => o.Within req m ∧ Within req (m + o.text.length) l

theorem within_max (m : Nat) (l : List Op) : Within (2 ^ 64 - 1) m l := by
  induction l generalizing m with
  | nil => trivial
  | cons o l ih =>
    refine ⟨?_, ih _⟩
    cases o <;> simp [Op.Within]

/-- `Inv b t`: the buffer `b` has received the text `t` -/
structure Kind.Law {κ : Type} (K : Kind κ) (Inv : Buf κ → Str → Prop) (throws : Prop) (off lim req : Nat) : Prop where
  lim_lt : lim < 2 ^ 64
  lim_req : lim ≤ req
  size_le : ∀ b t, Inv b t → b.size ≤ b.capacity ∧ b.capacity < 2 ^ 64 ∧ b.size ≤ off + t.length
  grow : ∀ b t n, Inv b t → b.capacity < n → n < 2 ^ 64 → n ≤ req →
    (∃ b', K.grow n b = .ok b' ∧ Inv b' t ∧ b'.size < b'.capacity) ∨ (throws ∧ ∃ b', K.grow n b = .threw b' ∧ Inv b' t)
  store : ∀ b t c, Inv b t → b.size < b.capacity → off + t.length + 1 ≤ lim →
    ∃ r, K.store b.size c b.rest = .ok r ∧ Inv ⟨b.size + 1, b.capacity, r⟩ (t ++ [c])

namespace Kind.Law

variable {κ : Type} {K : Kind κ} {Inv : Buf κ → Str → Prop} {throws : Prop} {off lim req : Nat}

/-- the buffer received `u` after `t`, or an exception left it with something received in between -/
def Got (Inv : Buf κ → Str → Prop) (throws : Prop) (t u : Str) (r : Run (Buf κ)) : Prop :=
  (∃ b, r = .ok b ∧ Inv b (t ++ u)) ∨ (throws ∧ ∃ b v, r = .threw b ∧ v <+: u ∧ Inv b (t ++ v))

theorem Got.bind {t u v : Str} {r : Run (Buf κ)} {f : Buf κ → Run (Buf κ)} (h : Got Inv throws t u r)
    (hf : ∀ b, r = .ok b → Inv b (t ++ u) → Got Inv throws (t ++ u) v (f b)) : Got Inv throws t (u ++ v) (r.andThen f) := by
  rcases h with ⟨b, rfl, hb⟩ | ⟨ht, b, w, rfl, hw, hb⟩
  · rcases hf b rfl hb with ⟨b', h1, h2⟩ | ⟨ht, b', w, h1, hw, h2⟩
    · exact .inl ⟨b', h1, by rw [← List.append_assoc]; exact h2⟩
    · exact .inr ⟨ht, b', u ++ w, h1, List.prefix_append_right_inj u |>.mpr hw, by rw [← List.append_assoc]; exact h2⟩
  · exact .inr ⟨ht, b, w, rfl, hw.trans (List.prefix_append u v), hb⟩

theorem tryReserve_got (L : K.Law Inv throws off lim req) {b : Buf κ} {t : Str} {n : Nat} (h : Inv b t) (hn : n < 2 ^ 64)
    (hr : n ≤ req) :
    (∃ b', b.tryReserve K n = .ok b' ∧ Inv b' t ∧ (n ≤ b'.capacity ∧ b' = b ∨ b'.size < b'.capacity)) ∨
      (throws ∧ ∃ b', b.tryReserve K n = .threw b' ∧ Inv b' t) := by
  by_cases hc : n > b.capacity
  · rw [Buf.tryReserve, if_pos hc]
    rcases L.grow b t n h hc hn hr with ⟨b', h1, h2, h3⟩ | h1
    · exact .inl ⟨b', h1, h2, .inr h3⟩
    · exact .inr h1
  · rw [Buf.tryReserve, if_neg hc]
    exact .inl ⟨b, rfl, h, .inl ⟨by omega, rfl⟩⟩

theorem storeAll_got (L : K.Law Inv throws off lim req) : ∀ (u : Str) (b : Buf κ) (t : Str), Inv b t →
    b.size + u.length ≤ b.capacity → off + t.length + u.length ≤ lim →
    ∃ r, Buf.storeAll K b.size u b.rest = .ok r ∧ Inv ⟨b.size + u.length, b.capacity, r⟩ (t ++ u)
  | [], b, t, h, _, _ => ⟨b.rest, rfl, by rw [List.append_nil]; exact h⟩
  | c :: u, b, t, h, hs, hl => by
    simp only [List.length_cons] at hs hl
    obtain ⟨r, h1, h2⟩ := L.store b t c h (by omega) (by omega)
    obtain ⟨r', h3, h4⟩ := storeAll_got L u _ _ h2 (by show b.size + 1 + u.length ≤ b.capacity; omega)
      (by rw [List.length_append]; simp only [List.length_cons, List.length_nil]; omega)
    refine ⟨r', ?_, ?_⟩
    · rw [Buf.storeAll, h1]; exact h3
    · rw [show t ++ c :: u = t ++ [c] ++ u by simp]
      have e : b.size + (c :: u).length = b.size + 1 + u.length := by rw [List.length_cons]; omega
      rw [e]; exact h4

theorem pushBack_got (L : K.Law Inv throws off lim req) {b : Buf κ} {t : Str} (c : Char) (h : Inv b t)
    (hl : off + t.length + 1 ≤ lim) : Got Inv throws t [c] (b.pushBack K c) := by
  have hb := L.size_le b t h
  have hlim := L.lim_lt
  have hreq := L.lim_req
  rw [Buf.pushBack, wrap_eq (by omega)]
  rcases L.tryReserve_got (n := b.size + 1) h (by omega) (by omega) with ⟨b', h1, h2, h3⟩ | ⟨ht, b', h1, h2⟩
  · rw [h1]
    have hb' := L.size_le b' t h2
    have hs : b'.size < b'.capacity := by
      rcases h3 with ⟨h3, rfl⟩ | h3 <;> omega
    obtain ⟨r, h4, h5⟩ := L.store b' t c h2 hs hl
    refine .inl ⟨_, ?_, h5⟩
    rw [Run.andThen_ok, h4, Run.then_ok, wrap_eq (by omega)]
  · rw [h1]
    exact .inr ⟨ht, b', [], rfl, List.nil_prefix, by rw [List.append_nil]; exact h2⟩

theorem appendLoop_got (L : K.Law Inv throws off lim req) : ∀ (fuel : Nat) (u : Str) (b : Buf κ) (t : Str), Inv b t →
    u.length ≤ fuel → off + t.length + u.length ≤ lim → Got Inv throws t u (Buf.appendLoop K fuel u b)
  | fuel, [], b, t, h, _, _ => by
    have e : Buf.appendLoop K fuel [] b = .ok b := by cases fuel <;> rfl
    exact .inl ⟨b, e, by rw [List.append_nil]; exact h⟩
  | 0, c :: u, b, t, _, hf, _ => by simp at hf
  | fuel + 1, c :: u, b, t, h, hf, hl => by
    have hb := L.size_le b t h
    have hlim := L.lim_lt
    have hreq := L.lim_req
    generalize hx : c :: u = x at *
    have hx1 : 1 ≤ x.length := by rw [← hx]; simp
    have e : Buf.appendLoop K (fuel + 1) x b =
        (b.tryReserve K (wrap (b.size + x.length))).andThen fun b =>
          (Buf.storeAll K b.size (x.take (if wrapSub b.capacity b.size < x.length then
            wrapSub b.capacity b.size else x.length)) b.rest).then (fun r => { b with rest := r })
            fun r => Buf.appendLoop K fuel (x.drop (if wrapSub b.capacity b.size < x.length then
              wrapSub b.capacity b.size else x.length))
              { b with size := wrap (b.size + (if wrapSub b.capacity b.size < x.length then
                wrapSub b.capacity b.size else x.length)), rest := r } := by
      rw [← hx]; rfl
    rw [e, wrap_eq (by omega)]
    rcases L.tryReserve_got (n := b.size + x.length) h (by omega) (by omega) with ⟨b', h1, h2, h3⟩ | ⟨ht, b', h1, h2⟩
    · rw [h1]
      rw [Run.andThen_ok]
      have hb' := L.size_le b' t h2
      have hm : wrapSub b'.capacity b'.size = b'.capacity - b'.size := wrapSub_eq hb'.1 hb'.2.1
      have hs : b'.size < b'.capacity := by
        rcases h3 with ⟨h3, rfl⟩ | h3 <;> omega
      rw [hm]
      generalize hk : (if b'.capacity - b'.size < x.length then b'.capacity - b'.size else x.length) = k
      have hk1 : 1 ≤ k ∧ k ≤ x.length ∧ b'.size + k ≤ b'.capacity := by
        rw [← hk]; split <;> omega
      have hkl : (x.take k).length = k := by rw [List.length_take]; omega
      obtain ⟨r, h4, h5⟩ := L.storeAll_got (x.take k) b' t h2 (by omega) (by omega)
      rw [h4]
      rw [Run.then_ok, wrap_eq (by omega)]
      rw [hkl] at h5
      have h6 := L.appendLoop_got fuel (x.drop k) _ _ h5 (by rw [List.length_drop]; omega)
        (by rw [List.length_append, hkl, List.length_drop]; omega)
      rcases h6 with ⟨b'', h7, h8⟩ | ⟨ht, b'', w, h7, hw, h8⟩
      · refine .inl ⟨b'', h7, ?_⟩
        rw [List.append_assoc, List.take_append_drop] at h8
        exact h8
      · refine .inr ⟨ht, b'', x.take k ++ w, h7, ?_, by rw [← List.append_assoc]; exact h8⟩
        have := (List.prefix_append_right_inj (x.take k)).mpr hw
        rw [List.take_append_drop] at this
        exact this
    · rw [h1]
      exact .inr ⟨ht, b', [], rfl, List.nil_prefix, by rw [List.append_nil]; exact h2⟩

theorem append_got (L : K.Law Inv throws off lim req) {b : Buf κ} {t : Str} (u : Str) (h : Inv b t)
    (hl : off + t.length + u.length ≤ lim) : Got Inv throws t u (b.append K u) :=
  L.appendLoop_got _ u b t h (Nat.le_refl _) hl

theorem pushAll_got (L : K.Law Inv throws off lim req) : ∀ (u : Str) (b : Buf κ) (t : Str), Inv b t →
    off + t.length + u.length ≤ lim → Got Inv throws t u (pushAll K u b)
  | [], b, t, h, _ => .inl ⟨b, rfl, by rw [List.append_nil]; exact h⟩
  | c :: u, b, t, h, hl => by
    rw [List.length_cons] at hl
    have h1 := L.pushBack_got c h (by omega)
    exact Got.bind (u := [c]) h1 fun b' _ hb' => L.pushAll_got u b' _ hb' (by
      rw [List.length_append]; simp only [List.length_cons, List.length_nil]; omega)

theorem run_got (L : K.Law Inv throws off lim req) {b : Buf κ} {t : Str} (o : Op) (h : Inv b t)
    (hr : o.Within req (off + t.length)) (hl : off + t.length + o.text.length ≤ lim) : Got Inv throws t o.text (o.run K b) := by
  have hb := L.size_le b t h
  have hlim := L.lim_lt
  have hreq := L.lim_req
  cases o with
  | push c => exact L.pushBack_got c h hl
  | append u => exact L.append_got u h hl
  | reserve n =>
    rcases L.tryReserve_got (n := wrap (b.size + n)) h (wrap_lt _) (by
      rcases hr with hr | hr
      · rw [wrap_eq (by omega)]; omega
      · have := wrap_lt (b.size + n); omega) with ⟨b', h1, h2, _⟩ | ⟨ht, b', h1, h2⟩
    · exact .inl ⟨b', h1, by show Inv b' (t ++ []); rw [List.append_nil]; exact h2⟩
    · exact .inr ⟨ht, b', [], h1, List.nil_prefix, by rw [List.append_nil]; exact h2⟩
  | direct pushed u =>
    have hl : off + t.length + (pushed ++ u).length ≤ lim := hl
    show Got Inv throws t (pushed ++ u) _
    have hlen : (pushed ++ u).length = pushed.length + u.length := List.length_append
    rw [Op.run]
    split
    · rename_i hp
      rw [hasPointer, wrap_eq (by omega)] at hp
      have hp : b.size + (pushed ++ u).length ≤ b.capacity := by
        simp only [Bool.not_eq_true', decide_eq_false_iff_not] at hp; omega
      rw [wrap_eq (by omega), Buf.tryResize, Buf.tryReserve, if_neg (by omega)]
      obtain ⟨r, h4, h5⟩ := L.storeAll_got (pushed ++ u) b t h hp hl
      refine .inl ⟨_, ?_, h5⟩
      rw [Run.andThen_ok, Run.andThen_ok, h4, Run.then_ok, if_pos hp]
    · exact Got.bind (L.pushAll_got pushed b t h (by omega)) fun b' _ hb' => L.append_got u hb' (by
        rw [List.length_append]; omega)

theorem runOps_got (L : K.Law Inv throws off lim req) : ∀ (l : List Op) (b : Buf κ) (t : Str), Inv b t →
    Within req (off + t.length) l → off + t.length + (opsText l).length ≤ lim → Got Inv throws t (opsText l) (runOps K l b)
  | [], b, t, h, _, _ => .inl ⟨b, rfl, by show Inv b (t ++ []); rw [List.append_nil]; exact h⟩
  | o :: l, b, t, h, hr, hl => by
    have e : opsText (o :: l) = o.text ++ opsText l := rfl
    rw [e, List.length_append] at hl
    rw [e]
    exact Got.bind (L.run_got o h hr.1 (by omega)) fun b' _ hb' => L.runOps_got l b' _ hb' (by
      rw [List.length_append, ← Nat.add_assoc]; exact hr.2) (by
      rw [List.length_append]; omega)

/-- without exceptions -/
theorem runOps_ok (L : K.Law Inv False off lim req) (l : List Op) (b : Buf κ) (h : Inv b []) (hr : Within req off l)
    (hl : off + (opsText l).length ≤ lim) : ∃ b', runOps K l b = .ok b' ∧ Inv b' (opsText l) := by
  rcases L.runOps_got l b [] h hr (by simpa using hl) with h | ⟨h, _⟩
  · exact h
  · exact h.elim

end Kind.Law

end Fmt
end Efp
