/-!
# Outcomes, object lifetimes and storage

Shared vocabulary of the model.  Nothing here models one particular function of the repository; it
fixes how C++ statements are represented:

* `UB`      the reasons for undefined (or unspecified-value) behaviour the model distinguishes;
* `Out`     the three outcomes of a C++ operation (result, thrown `RuntimeError`, undefined behaviour);
* `Cpp`     state-passing computations with these outcomes;
* `Cell`    one slot of raw storage (`RawStorage`, meta.hpp 862-899, or an allocated block);
* `Kind`    whether the element type is trivial or resource-owning;
* `Mem`     a storage block plus the ledger of constructions and destructions.
-/

deriving instance DecidableEq for Except

namespace Efp

/-- Reasons for undefined behaviour distinguished by the model. -/
inductive UB where
  /-- access outside the storage block -/
  | oob
  /-- access through a null `_data` -/
  | nullPtr
  /-- access through a pointer member that was never initialised, or through a dangling reference -/
  | wildPtr
  /-- reading (or moving from) a slot that holds no object -/
  | deadRead
  /-- reading a moved-from object: the value is unspecified -/
  | movedRead
  /-- running the destructor on a slot that holds no object -/
  | deadDestroy
  /-- assigning to a slot that holds no object of a resource-owning type -/
  | deadAssign
  /-- a loop of the C++ code never terminates -/
  | diverge
  /-- division by zero -/
  | divZero
  /-- signed integer overflow -/
  | overflow
  deriving DecidableEq, Repr

/-- Outcome of a C++ operation: normal result with final state, thrown `RuntimeError` with the state
at the throw, or undefined behaviour. -/
inductive Out (σ β : Type) where
  | ok (b : β) (s : σ)
  | thrown (s : σ)
  | ub (w : UB)
  deriving DecidableEq, Repr

/-- A C++ operation acting on a state `σ`. -/
def Cpp (σ β : Type) := σ → Out σ β

namespace Cpp

variable {σ β γ : Type}

/-- normal return -/
@[reducible] protected def pure (b : β) : Cpp σ β := fun s => .ok b s

/-- sequencing: the second statement runs only after a normal outcome -/
@[reducible] protected def bind (m : Cpp σ β) (f : β → Cpp σ γ) : Cpp σ γ := fun s =>
  match m s with
  | .ok b s' => f b s'
  | .thrown s' => .thrown s'
  | .ub w => .ub w

instance : Monad (Cpp σ) where
  pure := Cpp.pure
  bind := Cpp.bind

/-- read the state -/
@[reducible] def get : Cpp σ σ := fun s => .ok s s
/-- overwrite the state -/
@[reducible] def set (s : σ) : Cpp σ Unit := fun _ => .ok () s
/-- update the state -/
@[reducible] def modify (f : σ → σ) : Cpp σ Unit := fun s => .ok () (f s)
/-- `throw RuntimeError(...)` -/
@[reducible] def throw : Cpp σ β := fun s => .thrown s
/-- undefined behaviour -/
@[reducible] def ub (w : UB) : Cpp σ β := fun _ => .ub w

@[simp] theorem pure_run (b : β) (s : σ) : (pure b : Cpp σ β) s = .ok b s := rfl
@[simp] theorem get_run (s : σ) : (Cpp.get : Cpp σ σ) s = .ok s s := rfl
@[simp] theorem set_run (t s : σ) : (Cpp.set t : Cpp σ Unit) s = .ok () t := rfl
@[simp] theorem modify_run (f : σ → σ) (s : σ) : (Cpp.modify f : Cpp σ Unit) s = .ok () (f s) := rfl
@[simp] theorem throw_run (s : σ) : (Cpp.throw : Cpp σ β) s = .thrown s := rfl
@[simp] theorem ub_run (w : UB) (s : σ) : (Cpp.ub w : Cpp σ β) s = .ub w := rfl

theorem bind_run (m : Cpp σ β) (f : β → Cpp σ γ) (s : σ) :
    (m >>= f) s = match m s with
      | .ok b s' => f b s'
      | .thrown s' => .thrown s'
      | .ub w => .ub w := rfl

@[simp] theorem bind_ok {m : Cpp σ β} {f : β → Cpp σ γ} {s s' : σ} {b : β}
    (h : m s = .ok b s') : (m >>= f) s = f b s' := by
  rw [bind_run, h]

@[simp] theorem bind_thrown {m : Cpp σ β} {f : β → Cpp σ γ} {s s' : σ}
    (h : m s = .thrown s') : (m >>= f) s = .thrown s' := by
  rw [bind_run, h]

@[simp] theorem bind_ub {m : Cpp σ β} {f : β → Cpp σ γ} {s : σ} {w : UB}
    (h : m s = .ub w) : (m >>= f) s = .ub w := by
  rw [bind_run, h]

@[simp] theorem pure_bind (b : β) (f : β → Cpp σ γ) : ((pure b : Cpp σ β) >>= f) = f b := rfl

end Cpp

/-- One slot of storage: no object, a living object with a value, or a living moved-from object. -/
inductive Cell (α : Type) where
  | raw
  | live (a : α)
  | moved
  deriving DecidableEq, Repr

/-- Element kinds. `trivial`: trivially copyable and destructible (destruction is a no-op as in
C++11-17, assignment into raw storage is allowed, moving is copying).  `managed`: the object owns a
resource, so destroying, assigning or reading where no object lives is undefined. -/
inductive Kind where
  | trivial
  | managed
  deriving DecidableEq, Repr

/-- Counters over a whole execution: objects constructed and destroyed, blocks allocated and freed,
and existing elements relocated by reallocation. -/
structure Ledger where
  made : Nat := 0
  gone : Nat := 0
  alloc : Nat := 0
  freed : Nat := 0
  reloc : Nat := 0
  deriving DecidableEq, Repr

/-- objects constructed and not yet destroyed -/
def Ledger.objs (l : Ledger) : Int := (l.made : Int) - l.gone
/-- blocks allocated and not yet freed -/
def Ledger.blocks (l : Ledger) : Int := (l.alloc : Int) - l.freed

/-- A storage block with the ledger. -/
structure Mem (α : Type) where
  cells : List (Cell α)
  led : Ledger := {}
  deriving DecidableEq, Repr

/-- does the slot hold a living object? -/
def Cell.alive {α : Type} : Cell α → Bool
  | .raw => false
  | .live _ => true
  | .moved => true

/-- number of living objects in a block -/
def aliveCount {α : Type} (cs : List (Cell α)) : Nat := cs.countP Cell.alive

namespace Mem

variable {α : Type}

/-- `new (p + i) Element {a}` / `AllocatorTraits::construct`: whatever object was there is overwritten
without a destructor call (visible in the ledger as a leak for managed elements). -/
def construct (i : Nat) (a : α) : Cpp (Mem α) Unit := fun m =>
  if i < m.cells.length then
    .ok () { cells := m.cells.set i (.live a), led := { m.led with made := m.led.made + 1 } }
  else .ub .oob

/-- `(p + i)->~Element()` / `AllocatorTraits::destroy`. -/
def destroy (k : Kind) (i : Nat) : Cpp (Mem α) Unit := fun m =>
  match m.cells[i]? with
  | none => .ub .oob
  | some c =>
    match k with
    | .trivial => .ok () { m with led := { m.led with gone := m.led.gone + 1 } }
    | .managed =>
      if c.alive then
        .ok () { cells := m.cells.set i .raw, led := { m.led with gone := m.led.gone + 1 } }
      else .ub .deadDestroy

/-- reading `p[i]` as an lvalue whose value is used -/
def read (i : Nat) : Cpp (Mem α) α := fun m =>
  match m.cells[i]? with
  | none => .ub .oob
  | some .raw => .ub .deadRead
  | some .moved => .ub .movedRead
  | some (.live a) => .ok a m

/-- `efp::move(p[i])` as the source of a move construction or assignment: the value is taken and,
for managed elements, the source is left moved-from. -/
def moveOut (k : Kind) (i : Nat) : Cpp (Mem α) α := fun m =>
  match m.cells[i]? with
  | none => .ub .oob
  | some .raw => .ub .deadRead
  | some .moved => .ub .movedRead
  | some (.live a) =>
    match k with
    | .trivial => .ok a m
    | .managed => .ok a { m with cells := m.cells.set i .moved }

/-- `p[i] = a` -/
def assign (k : Kind) (i : Nat) (a : α) : Cpp (Mem α) Unit := fun m =>
  match m.cells[i]? with
  | none => .ub .oob
  | some c =>
    if k = .managed ∧ c.alive = false then .ub .deadAssign
    else .ok () { m with cells := m.cells.set i (.live a) }

end Mem

/-- `for (i = lo; i < lo + n; ++i) body(i)` -/
def forUp {σ : Type} (body : Nat → Cpp σ Unit) : (lo n : Nat) → Cpp σ Unit
  | _, 0 => pure ()
  | lo, n + 1 => do body lo; forUp body (lo + 1) n

/-- `for (i = hi; i > hi - n; --i) body(i)`, i.e. `body hi, body (hi-1), ...`, `n` times -/
def forDown {σ : Type} (body : Nat → Cpp σ Unit) : (hi n : Nat) → Cpp σ Unit
  | _, 0 => pure ()
  | hi, n + 1 => do body hi; forDown body (hi - 1) n

/-! ## Basic facts -/

/-- used by the examples: a successful run found by kernel evaluation -/
theorem exists_of_map {ε ρ γ : Type} {x : Except ε ρ} (f : ρ → γ) (y : γ) (h : x.map f = .ok y) :
    ∃ r, x = .ok r ∧ f r = y := by
  cases x with
  | error e => cases h
  | ok r => exact ⟨r, rfl, by cases h; rfl⟩

variable {α σ : Type}

@[simp] theorem aliveCount_nil : aliveCount ([] : List (Cell α)) = 0 := rfl
@[simp] theorem aliveCount_append (a b : List (Cell α)) :
    aliveCount (a ++ b) = aliveCount a + aliveCount b := by simp [aliveCount]
@[simp] theorem aliveCount_cons_raw (b : List (Cell α)) :
    aliveCount (.raw :: b) = aliveCount b := by simp [aliveCount, Cell.alive]
@[simp] theorem aliveCount_cons_live (a : α) (b : List (Cell α)) :
    aliveCount (.live a :: b) = aliveCount b + 1 := by simp [aliveCount, List.countP_cons, Cell.alive]
@[simp] theorem aliveCount_cons_moved (b : List (Cell α)) :
    aliveCount (.moved :: b) = aliveCount b + 1 := by simp [aliveCount, List.countP_cons, Cell.alive]
@[simp] theorem aliveCount_map_live (l : List α) : aliveCount (l.map Cell.live) = l.length := by
  induction l with
  | nil => rfl
  | cons x xs ih => simp [ih]
@[simp] theorem aliveCount_replicate_raw (n : Nat) :
    aliveCount (List.replicate n (Cell.raw : Cell α)) = 0 := by
  simp [aliveCount, List.countP_replicate, Cell.alive]
theorem aliveCount_all_raw {l : List (Cell α)} (h : ∀ c ∈ l, c = .raw) : aliveCount l = 0 := by
  induction l with
  | nil => rfl
  | cons x xs ih =>
    have hx := h x (by simp)
    subst hx
    simpa using ih (fun c hc => h c (by simp [hc]))

@[simp] theorem forUp_zero (body : Nat → Cpp σ Unit) (lo : Nat) : forUp body lo 0 = pure () := rfl
@[simp] theorem forDown_zero (body : Nat → Cpp σ Unit) (hi : Nat) : forDown body hi 0 = pure () := rfl

theorem forUp_succ (body : Nat → Cpp σ Unit) (lo n : Nat) :
    forUp body lo (n + 1) = (do body lo; forUp body (lo + 1) n) := rfl
theorem forDown_succ (body : Nat → Cpp σ Unit) (hi n : Nat) :
    forDown body hi (n + 1) = (do body hi; forDown body (hi - 1) n) := rfl

/-- Loop rule: an invariant indexed by the loop variable. -/
theorem forUp_inv {body : Nat → Cpp σ Unit} (P : Nat → σ → Prop) (lo n : Nat) (s : σ)
    (h0 : P lo s)
    (hstep : ∀ i t, lo ≤ i → i < lo + n → P i t → ∃ t', body i t = .ok () t' ∧ P (i + 1) t') :
    ∃ s', forUp body lo n s = .ok () s' ∧ P (lo + n) s' := by
  induction n generalizing lo s with
  | zero => exact ⟨s, rfl, h0⟩
  | succ n ih =>
    obtain ⟨t, ht, hP⟩ := hstep lo s (Nat.le_refl _) (by omega) h0
    obtain ⟨s', hs', hP'⟩ := ih (lo + 1) t hP (fun i u h1 h2 h3 => hstep i u (by omega) (by omega) h3)
    refine ⟨s', ?_, ?_⟩
    · rw [forUp_succ, Cpp.bind_ok ht, hs']
    · have : lo + (n + 1) = lo + 1 + n := by omega
      rw [this]; exact hP'

/-- Loop rule for counting-down loops. -/
theorem forDown_inv {body : Nat → Cpp σ Unit} (P : Nat → σ → Prop) (hi n : Nat) (hn : n ≤ hi) (s : σ)
    (h0 : P hi s)
    (hstep : ∀ i t, hi - n < i → i ≤ hi → P i t → ∃ t', body i t = .ok () t' ∧ P (i - 1) t') :
    ∃ s', forDown body hi n s = .ok () s' ∧ P (hi - n) s' := by
  induction n generalizing hi s with
  | zero => exact ⟨s, rfl, h0⟩
  | succ n ih =>
    obtain ⟨t, ht, hP⟩ := hstep hi s (by omega) (Nat.le_refl _) h0
    obtain ⟨s', hs', hP'⟩ := ih (hi - 1) (by omega) t hP
      (fun i u h1 h2 h3 => hstep i u (by omega) (by omega) h3)
    refine ⟨s', ?_, ?_⟩
    · rw [forDown_succ, Cpp.bind_ok ht, hs']
    · have : hi - (n + 1) = hi - 1 - n := by omega
      rw [this]; exact hP'

end Efp
