import Verif.Core

/-! Helper lemmas about the storage primitives of `Verif.Core`. -/

namespace Efp

variable {α β σ τ : Type}

/-- transport an outcome along a state map -/
def Out.mapState (f : σ → τ) : Out σ β → Out τ β
  | .ok b s => .ok b (f s)
  | .thrown s => .thrown (f s)
  | .ub w => .ub w

@[simp] theorem Out.mapState_ok (f : σ → τ) (b : β) (s : σ) :
    (Out.ok b s).mapState f = .ok b (f s) := rfl
@[simp] theorem Out.mapState_thrown (f : σ → τ) (s : σ) :
    (Out.thrown s : Out σ β).mapState f = .thrown (f s) := rfl
@[simp] theorem Out.mapState_ub (f : σ → τ) (w : UB) :
    (Out.ub w : Out σ β).mapState f = .ub w := rfl

/-- cell left behind by a destructor call -/
def dead (k : Kind) (c : Cell α) : Cell α :=
  match k with
  | .trivial => c
  | .managed => .raw

/-- cell left behind by a move -/
def husk (k : Kind) (a : α) : Cell α :=
  match k with
  | .trivial => .live a
  | .managed => .moved

@[simp] theorem dead_trivial (c : Cell α) : dead .trivial c = c := rfl
@[simp] theorem dead_managed (c : Cell α) : dead .managed c = .raw := rfl
@[simp] theorem husk_trivial (a : α) : husk .trivial a = .live a := rfl
@[simp] theorem husk_managed (a : α) : husk .managed a = .moved := rfl
@[simp] theorem husk_alive (k : Kind) (a : α) : (husk k a).alive = true := by cases k <;> rfl
@[simp] theorem live_alive (a : α) : (Cell.live a).alive = true := rfl
@[simp] theorem moved_alive : (Cell.moved : Cell α).alive = true := rfl
@[simp] theorem raw_alive : (Cell.raw : Cell α).alive = false := rfl

theorem get_mid {pre post : List τ} {c : τ} {i : Nat} (h : pre.length = i) :
    (pre ++ c :: post)[i]? = some c := by
  subst h; simp

theorem set_mid {pre post : List τ} {c d : τ} {i : Nat} (h : pre.length = i) :
    (pre ++ c :: post).set i d = pre ++ d :: post := by
  subst h; simp

namespace Mem

theorem construct_mid {pre post : List (Cell α)} {c : Cell α} {i : Nat} {led : Ledger} (a : α)
    (h : pre.length = i) :
    construct i a ⟨pre ++ c :: post, led⟩ =
      .ok () ⟨pre ++ .live a :: post, { led with made := led.made + 1 }⟩ := by
  have : i < (pre ++ c :: post).length := by simp; omega
  simp only [construct, this, if_true, set_mid h]

theorem destroy_mid {k : Kind} {pre post : List (Cell α)} {c : Cell α} {i : Nat} {led : Ledger}
    (h : pre.length = i) (hc : k = .managed → c.alive = true) :
    destroy k i ⟨pre ++ c :: post, led⟩ =
      .ok () ⟨pre ++ dead k c :: post, { led with gone := led.gone + 1 }⟩ := by
  cases k with
  | trivial => simp only [destroy, get_mid h, dead]
  | managed => simp only [destroy, get_mid h, hc rfl, if_true, set_mid h, dead]

theorem read_mid {pre post : List (Cell α)} {a : α} {i : Nat} {led : Ledger} (h : pre.length = i) :
    read i ⟨pre ++ .live a :: post, led⟩ = .ok a ⟨pre ++ .live a :: post, led⟩ := by
  simp only [read, get_mid h]

theorem moveOut_mid {k : Kind} {pre post : List (Cell α)} {a : α} {i : Nat} {led : Ledger}
    (h : pre.length = i) :
    moveOut k i ⟨pre ++ .live a :: post, led⟩ = .ok a ⟨pre ++ husk k a :: post, led⟩ := by
  cases k <;> simp only [moveOut, get_mid h, set_mid h, husk]

theorem assign_mid {k : Kind} {pre post : List (Cell α)} {c : Cell α} {a : α} {i : Nat} {led : Ledger}
    (h : pre.length = i) (hc : k = .managed → c.alive = true) :
    assign k i a ⟨pre ++ c :: post, led⟩ = .ok () ⟨pre ++ .live a :: post, led⟩ := by
  have : ¬ (k = .managed ∧ c.alive = false) := by
    rintro ⟨h1, h2⟩
    rw [hc h1] at h2; cases h2
  simp only [assign, get_mid h, this, if_false, set_mid h]

/-- destroying a range of living objects -/
theorem destroy_range {k : Kind} (cs : List (Cell α)) (pre post : List (Cell α)) (led : Ledger)
    (hc : k = .managed → ∀ c ∈ cs, c.alive = true) :
    forUp (fun i => destroy k i) pre.length cs.length ⟨pre ++ cs ++ post, led⟩ =
      .ok () ⟨pre ++ cs.map (dead k) ++ post, { led with gone := led.gone + cs.length }⟩ := by
  induction cs generalizing pre led with
  | nil => simp
  | cons c cs ih =>
    have h1 := destroy_mid (k := k) (pre := pre) (post := cs ++ post) (c := c) (led := led) rfl
      (fun hk => hc hk c (by simp))
    have h2 := ih (pre ++ [dead k c]) { led with gone := led.gone + 1 }
      (fun hk c' hc' => hc hk c' (by simp [hc']))
    simp only [List.append_assoc, List.cons_append, List.nil_append, List.length_append,
      List.length_cons, List.length_nil, Nat.zero_add] at h1 h2
    simp only [List.append_assoc, List.cons_append, List.length_cons, forUp_succ]
    rw [Cpp.bind_ok h1, h2]
    simp [Nat.add_assoc, Nat.add_comm 1]

end Mem

end Efp
