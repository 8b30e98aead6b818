import Verif.Spec.Growth
import Verif.StringLemmas

/-!
# What every call does to size, capacity, relocations and allocations

Proofs only: the calls of `Verif/Vector.lean` and `Verif/String.lean` act on these four numbers in a way that does not depend
on the elements (`next`), and an amortisation argument is made on the numbers alone.
-/

namespace Efp
namespace Growth

open VecS Spec

variable {α β γ : Type}

structure Foot where
  size : Nat
  cap : Nat
  reloc : Nat
  alloc : Nat

def foot (s : VecS α) : Foot := ⟨s.size, s.cap, s.led.reloc, s.led.alloc⟩

/-- `m` maps the numbers by `f`, however it ends -/
def Acts (f : Foot → Foot) (m : Cpp (VecS α) β) : Prop :=
  ∀ s, match m s with
    | .ok _ t => foot t = f (foot s)
    | .thrown t => foot t = f (foot s)
    | .ub _ => True

/-- `m` maps the numbers by `f` and does not throw -/
def Does (f : Foot → Foot) (m : Cpp (VecS α) β) : Prop :=
  ∀ s, match m s with
    | .ok _ t => foot t = f (foot s)
    | .thrown _ => False
    | .ub _ => True

theorem Does.acts {f : Foot → Foot} {m : Cpp (VecS α) β} (h : Does f m) : Acts f m := by
  intro s
  have := h s
  cases e : m s with
  | ok b t => rw [e] at this; exact this
  | thrown t => rw [e] at this; exact this.elim
  | ub w => trivial

theorem Does.bind {f g : Foot → Foot} {m : Cpp (VecS α) β} {r : β → Cpp (VecS α) γ} (hm : Does f m) (hr : ∀ b, Does g (r b)) :
    Does (g ∘ f) (m >>= r) := by
  intro s
  have h1 := hm s
  rw [Cpp.bind_run]
  cases e : m s with
  | ok b t =>
    rw [e] at h1
    have h2 := hr b t
    simp only
    cases e2 : r b t with
    | ok c u => rw [e2] at h2; simp only at h1 h2 ⊢; rw [h2, h1]; rfl
    | thrown u => rw [e2] at h2; exact h2
    | ub w => trivial
  | thrown t => rw [e] at h1; exact h1
  | ub w => trivial

theorem Does.still_bind {g : Foot → Foot} {m : Cpp (VecS α) β} {r : β → Cpp (VecS α) γ} (hm : Does id m) (hr : ∀ b, Does g (r b)) :
    Does g (m >>= r) := Does.bind hm hr

theorem Does.cases {f : Foot → Foot} {m : Cpp (VecS α) β} (h : Does f m) (s : VecS α) :
    (∃ b t, m s = .ok b t ∧ foot t = f (foot s)) ∨ ∃ w, m s = .ub w := by
  have := h s
  cases e : m s with
  | ok b t => rw [e] at this; exact .inl ⟨b, t, rfl, this⟩
  | thrown t => rw [e] at this; exact this.elim
  | ub w => exact .inr ⟨w, rfl⟩

theorem Does.pure (b : β) : Does id (Pure.pure b : Cpp (VecS α) β) := fun _ => rfl

theorem Does.get : Does id (Cpp.get : Cpp (VecS α) (VecS α)) := fun _ => rfl

theorem Does.forUp {body : Nat → Cpp (VecS α) Unit} (hb : ∀ i, Does id (body i)) (lo n : Nat) : Does id (forUp body lo n) := by
  induction n generalizing lo with
  | zero => exact Does.pure ()
  | succ n ih => exact Does.still_bind (hb lo) fun _ => ih (lo + 1)

theorem Does.forDown {body : Nat → Cpp (VecS α) Unit} (hb : ∀ i, Does id (body i)) (hi n : Nat) : Does id (forDown body hi n) := by
  induction n generalizing hi with
  | zero => exact Does.pure ()
  | succ n ih => exact Does.still_bind (hb hi) fun _ => ih (hi - 1)

theorem Does.modify {f : Foot → Foot} {g : VecS α → VecS α} (h : ∀ s, foot (g s) = f (foot s)) : Does f (Cpp.modify g) := h

/-- a primitive on the storage -/
def Quiet (m : Cpp (Mem α) β) : Prop :=
  ∀ s, match m s with
    | .ok _ t => t.led.reloc = s.led.reloc ∧ t.led.alloc = s.led.alloc
    | .thrown _ => False
    | .ub _ => True

theorem quiet_construct (i : Nat) (a : α) : Quiet (Mem.construct i a) := by
  intro s
  by_cases h : i < s.cells.length <;> simp [Mem.construct, h]

theorem quiet_destroy (k : Kind) (i : Nat) : Quiet (Mem.destroy k i : Cpp (Mem α) Unit) := by
  intro s
  cases k <;> rcases h : s.cells[i]? with _ | (_ | _ | _) <;> simp [Mem.destroy, h, Cell.alive]

theorem quiet_read (i : Nat) : Quiet (Mem.read i : Cpp (Mem α) α) := by
  intro s
  rcases h : s.cells[i]? with _ | (_ | _ | _) <;> simp [Mem.read, h]

theorem quiet_moveOut (k : Kind) (i : Nat) : Quiet (Mem.moveOut k i : Cpp (Mem α) α) := by
  intro s
  cases k <;> rcases h : s.cells[i]? with _ | (_ | _ | _) <;> simp [Mem.moveOut, h]

theorem quiet_assign (k : Kind) (i : Nat) (a : α) : Quiet (Mem.assign k i a) := by
  intro s
  cases k <;> rcases h : s.cells[i]? with _ | (_ | _ | _) <;> simp [Mem.assign, h, Cell.alive]

theorem Does.onMem {m : Cpp (Mem α) β} (h : Quiet m) : Does id (VecS.onMem m) := by
  intro s
  have := h s.toMem
  cases hp : s.ptr with
  | null => simp only [VecS.onMem, hp]
  | wild => simp only [VecS.onMem, hp]
  | block =>
    simp only [VecS.onMem, hp]
    cases e : m s.toMem with
    | ub u => trivial
    | thrown t => rw [e] at this; exact this.elim
    | ok b t =>
      rw [e] at this
      obtain ⟨h1, h2⟩ := this
      show Foot.mk _ _ _ _ = Foot.mk _ _ _ _
      simp only [h1, h2]

theorem does_destroyAll (k : Kind) : Does id (destroyAll k : Cpp (VecS α) Unit) := fun s =>
  Does.forUp (fun i => Does.onMem (quiet_destroy k i)) 0 s.size s

theorem does_dealloc : Does id (dealloc : Cpp (VecS α) Unit) := by
  intro s
  cases hp : s.ptr <;> simp [dealloc, hp, foot]

theorem does_relocate (k : Kind) (n i : Nat) (new : List (Cell α)) :
    Does (fun x => { x with reloc := x.reloc + n }) (relocate k n i new) := by
  induction n generalizing i new with
  | zero => exact fun _ => rfl
  | succ n ih =>
    refine Does.still_bind (Does.onMem (quiet_moveOut k i)) fun a => ?_
    refine Does.still_bind ?_ fun new' => ?_
    · intro s
      simp only [constructIn]
      by_cases hi : i < new.length
      · rw [if_pos hi]; rfl
      · rw [if_neg hi]; trivial
    · have := Does.bind (f := fun x => { x with reloc := x.reloc + 1 })
        (m := (Cpp.modify (fun s : VecS α => { s with led := { s.led with reloc := s.led.reloc + 1 } })))
        (fun _ => rfl) (fun _ => ih (i + 1) new')
      have he : (fun x : Foot => { x with reloc := x.reloc + (n + 1) }) =
          (fun x => { x with reloc := x.reloc + n }) ∘ fun x => { x with reloc := x.reloc + 1 } := by
        funext x
        simp only [Function.comp]
        congr 1
        omega
      rw [he]
      exact this

theorem does_reallocate (k : Kind) (n : Nat) :
    Does (fun x => { x with reloc := x.reloc + x.size, cap := n, alloc := x.alloc + 1 }) (reallocate k n : Cpp (VecS α) Unit) := by
  intro s
  unfold reallocate
  rw [Cpp.bind_ok (Cpp.modify_run _ _), Cpp.bind_ok (Cpp.get_run _)]
  have h := Does.bind (does_relocate k s.size 0 (List.replicate n .raw)) (fun new => Does.still_bind (does_destroyAll k) fun _ =>
    Does.still_bind does_dealloc fun _ => Does.modify (f := (fun x => { x with cap := n })) (g := (fun s : VecS α => { s with ptr := .block, cells := new, cap := n })) (fun _ => rfl))
  exact h { s with led := { s.led with alloc := s.led.alloc + 1 } }

def reserveF (n : Nat) (x : Foot) : Foot :=
  if n > x.cap then { x with reloc := x.reloc + x.size, cap := n, alloc := x.alloc + 1 } else x

theorem does_reserve (k : Kind) (n : Nat) : Does (reserveF n) (VecS.reserve k n : Cpp (VecS α) Unit) := by
  intro s
  unfold VecS.reserve
  by_cases h : n > s.cap
  · rw [if_pos h]
    have := does_reallocate k n s
    have hf : reserveF n (foot s) = { foot s with reloc := (foot s).reloc + (foot s).size, cap := n, alloc := (foot s).alloc + 1 } :=
      if_pos h
    rw [hf]
    exact this
  · rw [if_neg h]
    exact (if_neg h).symm

def setSize (n : Nat) (x : Foot) : Foot := { x with size := n }

def pushF (x : Foot) : Foot :=
  if x.size + 1 ≥ x.cap then
    { size := x.size + 1, cap := if x.size = 0 then 2 else 2 * x.size + 1, reloc := x.reloc + x.size, alloc := x.alloc + 1 }
  else { x with size := x.size + 1 }

theorem does_push (k : Kind) (a : α) : Does pushF (pushBack k a) := by
  intro s
  have hg : Does (fun x => if x.size + 1 ≥ x.cap then reserveF (if x.size = 0 then 2 else 2 * x.size + 1) x else x)
      (growPush k : Cpp (VecS α) Unit) := by
    intro s
    unfold growPush
    by_cases h : s.size + 1 ≥ s.cap
    · rw [if_pos h]
      have := does_reserve k (if s.size = 0 then 2 else 2 * s.size + 1) s
      have hf : (fun x : Foot => if x.size + 1 ≥ x.cap then reserveF (if x.size = 0 then 2 else 2 * x.size + 1) x else x) (foot s) =
        reserveF (if s.size = 0 then 2 else 2 * s.size + 1) (foot s) := if_pos h
      rw [hf]
      exact this
    · rw [if_neg h]
      exact (if_neg h).symm
  have h := Does.bind hg (fun _ => Does.still_bind (Does.get (α := α)) fun s' => Does.still_bind
    (Does.onMem (quiet_construct s'.size a)) fun _ => Does.modify (f := (fun x => { x with size := x.size + 1 })) (g := (fun s : VecS α => { s with size := s.size + 1 })) (fun _ => rfl)) s
  have he : ∀ x : Foot, ((fun x : Foot => { x with size := x.size + 1 }) ∘
      (fun x => if x.size + 1 ≥ x.cap then reserveF (if x.size = 0 then 2 else 2 * x.size + 1) x else x)) x = pushF x := by
    intro x
    simp only [Function.comp, pushF]
    by_cases hc : x.size + 1 ≥ x.cap
    · simp only [if_pos hc]
      have : (if x.size = 0 then 2 else 2 * x.size + 1) > x.cap := by split <;> omega
      simp only [reserveF, if_pos this]
    · simp only [if_neg hc]
  rw [he] at h
  exact h

/-- what a call does to the four numbers -/
def next : VecS.Op α → Foot → Foot
  | .push _, x => pushF x
  | .pop, x => { x with size := x.size - 1 }
  | .insert i _, x =>
    if i > x.size then x
    else if x.size + 1 ≥ x.cap then
      { size := x.size + 1, cap := if x.cap = 0 then 2 else 2 * x.cap, reloc := x.reloc + x.size, alloc := x.alloc + 1 }
    else { x with size := x.size + 1 }
  | .erase i, x => if i ≥ x.size then x else { x with size := x.size - 1 }
  | .clear, x => { x with size := 0 }
  | .reserve n, x => reserveF n x
  | .shrinkToFit, x =>
    if x.size < x.cap + 1 then { x with reloc := x.reloc + x.size, cap := x.size + 1, alloc := x.alloc + 1 } else x
  | .shrinkTo n, x => if n ≤ x.size then { reserveF (n + 1) x with size := n } else x
  | .setElem _ _, x => x

theorem does_insert_tail (k : Kind) (i hi n : Nat) (a : α) : Does (fun x => { x with size := x.size + 1 })
    (do forDown (fun i => do let x ← onMem (Mem.moveOut k (i - 1)); onMem (Mem.assign k i x)) hi n
        onMem (Mem.construct i a)
        Cpp.modify (fun s : VecS α => { s with size := s.size + 1 })) :=
  Does.still_bind (Does.forDown (fun i => Does.still_bind (Does.onMem (quiet_moveOut k (i - 1))) fun x =>
    Does.onMem (quiet_assign k i x)) hi n) fun _ => Does.still_bind (Does.onMem (quiet_construct i a)) fun _ => fun _ => rfl

theorem acts_op (k : Kind) (op : VecS.Op α) : Acts (next op) (op.run k) := by
  cases op with
  | push a => exact (does_push k a).acts
  | pop =>
    intro s
    simp only [VecS.Op.run]
    unfold popBack
    rw [Cpp.bind_ok (Cpp.get_run _)]
    by_cases h : s.size = 0
    · rw [if_pos h]
      simp [foot, next, h]
    · rw [if_neg h]
      exact (Does.still_bind (Does.onMem (quiet_destroy k (s.size - 1))) fun _ =>
        Does.modify (f := (fun x => { x with size := x.size - 1 })) (g := (fun s : VecS α => { s with size := s.size - 1 })) (fun _ => rfl)).acts s
  | insert i a =>
    intro s
    simp only [VecS.Op.run]
    unfold VecS.insert
    rw [Cpp.bind_ok (Cpp.get_run _)]
    by_cases h : i > s.size
    · rw [if_pos h]
      simp [foot, next, h]
    · rw [if_neg h]
      have hn : next (.insert i a : VecS.Op α) (foot s) = (if s.size + 1 ≥ s.cap then
          ({ size := s.size + 1, cap := if s.cap = 0 then 2 else 2 * s.cap, reloc := s.led.reloc + s.size,
             alloc := s.led.alloc + 1 } : Foot)
          else { foot s with size := s.size + 1 }) := if_neg h
      rw [hn]
      by_cases hc : s.size + 1 ≥ s.cap
      · simp only [if_pos hc]
        have := (Does.bind (does_reserve k (if s.cap = 0 then 2 else 2 * s.cap))
          (fun _ => does_insert_tail k i s.size (s.size - i) a)).acts s
        have hf : ((fun x : Foot => { x with size := x.size + 1 }) ∘ reserveF (if s.cap = 0 then 2 else 2 * s.cap)) (foot s) =
            ⟨s.size + 1, if s.cap = 0 then 2 else 2 * s.cap, s.led.reloc + s.size, s.led.alloc + 1⟩ := by
          have : (if s.cap = 0 then 2 else 2 * s.cap) > s.cap := by split <;> omega
          show (fun x : Foot => { x with size := x.size + 1 }) (reserveF _ (foot s)) = _
          rw [show reserveF (if s.cap = 0 then 2 else 2 * s.cap) (foot s) =
            ⟨s.size, if s.cap = 0 then 2 else 2 * s.cap, s.led.reloc + s.size, s.led.alloc + 1⟩ from if_pos this]
        rw [hf] at this
        exact this
      · simp only [if_neg hc]
        exact (does_insert_tail k i s.size (s.size - i) a).acts s
  | erase i =>
    intro s
    simp only [VecS.Op.run]
    unfold VecS.erase
    rw [Cpp.bind_ok (Cpp.get_run _)]
    by_cases h : i ≥ s.size
    · rw [if_pos h]
      simp [foot, next, h]
    · rw [if_neg h]
      have hn : next (.erase i : VecS.Op α) (foot s) = { foot s with size := s.size - 1 } := if_neg h
      rw [hn]
      exact (Does.still_bind (Does.onMem (quiet_destroy k i)) fun _ => Does.still_bind (Does.forUp (fun i =>
        Does.still_bind (Does.onMem (quiet_moveOut k (i + 1))) fun x => Does.onMem (quiet_assign k i x)) i (s.size - 1 - i)) fun _ =>
        Does.modify (f := (fun x => { x with size := x.size - 1 })) (g := (fun s : VecS α => { s with size := s.size - 1 })) (fun _ => rfl)).acts s
  | clear =>
    exact (Does.still_bind (does_destroyAll k) fun _ => Does.modify (f := (fun x => { x with size := 0 })) (g := (fun s : VecS α => { s with size := 0 })) (fun _ => rfl)).acts
  | reserve n => exact (does_reserve k n).acts
  | shrinkToFit =>
    intro s
    simp only [VecS.Op.run]
    unfold VecS.shrinkToFit
    by_cases h : s.size < s.cap + 1
    · rw [if_pos h]
      have hn : next (.shrinkToFit : VecS.Op α) (foot s) =
        { foot s with reloc := s.led.reloc + s.size, cap := s.size + 1, alloc := s.led.alloc + 1 } := if_pos h
      rw [hn]
      exact (does_reallocate k (s.size + 1)).acts s
    · rw [if_neg h]
      exact (if_neg h).symm
  | shrinkTo n =>
    intro s
    simp only [VecS.Op.run]
    by_cases h : n ≤ s.size
    · rw [if_pos h]
      have hn : next (.shrinkTo n : VecS.Op α) (foot s) = { reserveF (n + 1) (foot s) with size := n } := if_pos h
      rw [hn]
      unfold resize
      rw [Cpp.bind_ok (Cpp.get_run _)]
      by_cases hc : n + 1 > s.cap
      · simp only [if_pos hc]
        exact (Does.bind (does_reserve k (n + 1)) fun _ => Does.modify (f := (fun x => { x with size := n })) (g := (fun s : VecS α => { s with size := n })) (fun _ => rfl)).acts s
      · simp only [if_neg hc]
        have : reserveF (n + 1) (foot s) = foot s := if_neg hc
        rw [this]
        rfl
    · rw [if_neg h]
      exact (if_neg h).symm
  | setElem i a =>
    intro s
    simp only [VecS.Op.run]
    by_cases h : i < s.size
    · rw [if_pos h]
      exact (Does.onMem (quiet_assign k i a)).acts s
    · rw [if_neg h]
      rfl

theorem map_ok {ε : Type} {x : Except ε β} {f : β → γ} {y : γ} (h : x.map f = .ok y) : ∃ r, x = .ok r ∧ f r = y := by
  cases x with
  | error e => cases h
  | ok r => cases h; exact ⟨r, rfl, rfl⟩

theorem runOps_foot (k : Kind) (ops : List (VecS.Op α)) {s t : VecS α} {evs : List Bool} (h : VecS.runOps k ops s = .ok (t, evs)) :
    foot t = ops.foldl (fun x op => next op x) (foot s) := by
  induction ops generalizing s evs with
  | nil => cases h; rfl
  | cons op ops ih =>
    simp only [VecS.runOps] at h
    have ha := acts_op k op s
    cases e : op.run k s with
    | ub w => rw [e] at h; cases h
    | ok b u =>
      rw [e] at h ha
      obtain ⟨r, hr, hx⟩ := map_ok h
      cases hx
      rw [ih hr, ha]
      rfl
    | thrown u =>
      rw [e] at h ha
      obtain ⟨r, hr, hx⟩ := map_ok h
      cases hx
      rw [ih hr, ha]
      rfl

/-! ### Strings -/

/-- `n` times `push_back` -/
def pushes : Nat → Foot → Foot
  | 0, x => x
  | n + 1, x => pushes n (pushF x)

theorem does_pushes {body : Nat → Cpp (VecS α) Unit} (hb : ∀ i, Does pushF (body i)) (lo n : Nat) :
    Does (pushes n) (forUp body lo n) := by
  induction n generalizing lo with
  | zero => exact fun _ => rfl
  | succ n ih =>
    have := Does.bind (hb lo) fun _ => ih (lo + 1)
    exact this

theorem does_readArg (buf : List Nat) (i : Nat) : Does id (Str.readArg buf i : Cpp Str Nat) := by
  intro s
  unfold Str.readArg
  cases buf[i]? with
  | none => trivial
  | some c => rfl

theorem does_readOf (o : Str) (i : Nat) : Does id (Str.readOf o i : Cpp Str Nat) := by
  intro s
  have := Does.onMem (quiet_read i) o
  simp only [Str.readOf, VecS.at_]
  cases e : VecS.onMem (Mem.read i) o with
  | ok a t => rfl
  | thrown t => rw [e] at this; exact this.elim
  | ub w => trivial

theorem does_writeBody (pos : Nat) (buf : List Nat) (i : Nat) : Does id (Str.writeBody pos buf i) :=
  Does.still_bind (does_readArg buf i) fun c => Does.onMem (quiet_assign .trivial (pos + i) c)

/-- length of a C string, 0 if it does not end -/
def len (buf : List Nat) : Nat := (Str.strlen buf).getD 0

/-- what a call on a string does to the four numbers -/
def nextS : Str.SOp → Foot → Foot
  | .base op, x => next op x
  | .appendC buf, x => pushes (len buf) x
  | .appendN n _, x => pushes n x
  | .assignC buf, x => pushes (len buf) { x with size := 0 }
  | .assignN n _, x => pushes n { x with size := 0 }
  | .insertC pos buf, x => if pos > x.size then x else { reserveF (x.size + len buf) x with size := x.size + len buf }
  | .insertCN pos _ n, x => if pos > x.size then x else { reserveF (x.size + n + 1) x with size := x.size + n }
  | .plus w, x => pushes w.length x

theorem does_appendC (buf : List Nat) : Does (pushes (len buf)) (Str.appendC buf) := by
  unfold Str.appendC len
  cases Str.strlen buf with
  | none => exact fun _ => trivial
  | some n => exact does_pushes (fun i => Does.still_bind (does_readArg buf i) fun c => does_push .trivial c) 0 n

theorem does_appendN (n c : Nat) : Does (pushes n) (Str.appendN n c) := does_pushes (fun _ => does_push .trivial c) 0 n

theorem does_clear (k : Kind) : Does (fun x => { x with size := 0 }) (VecS.clear k : Cpp (VecS α) Unit) :=
  Does.still_bind (does_destroyAll k) fun _ => Does.modify (fun _ => rfl)

theorem does_insertAt (pos : Nat) (buf : List Nat) (n : Nat) : Does (fun x => { x with size := x.size + n }) (Str.insertAt pos buf n) :=
  fun s => (Does.still_bind (Does.forDown (fun i => Does.still_bind (Does.onMem (quiet_read (i - 1))) fun c =>
    Does.onMem (quiet_assign .trivial (i + n - 1) c)) s.size (s.size - pos)) fun _ =>
    Does.still_bind (Does.forUp (does_writeBody pos buf) 0 n) fun _ =>
    Does.modify (f := fun x => { x with size := x.size + n }) (g := fun t : Str => { t with size := t.size + n }) (fun _ => rfl)) s

theorem acts_sop (op : Str.SOp) : Acts (nextS op) op.run := by
  cases op with
  | base op => exact acts_op .trivial op
  | appendC buf => exact (does_appendC buf).acts
  | appendN n c => exact (does_appendN n c).acts
  | assignC buf => exact (Does.bind (does_clear .trivial) fun _ => does_appendC buf).acts
  | assignN n c => exact (Does.bind (does_clear .trivial) fun _ => does_appendN n c).acts
  | insertC pos buf =>
    intro s
    simp only [Str.SOp.run, Str.insertC]
    by_cases h : pos > s.size
    · rw [if_pos h]
      exact (if_pos h).symm
    · rw [if_neg h]
      have hn : nextS (.insertC pos buf) (foot s) = { reserveF (s.size + len buf) (foot s) with size := s.size + len buf } := if_neg h
      rw [hn]
      unfold len
      cases Str.strlen buf with
      | none => trivial
      | some n =>
        have := (Does.bind (does_reserve .trivial (s.size + n)) fun _ => does_insertAt pos buf n).acts s
        have hf : (reserveF (s.size + n) (foot s)).size = s.size := by unfold reserveF; split <;> rfl
        simp only [Function.comp, hf] at this
        exact this
  | insertCN pos buf n =>
    intro s
    simp only [Str.SOp.run, Str.insertCN]
    by_cases h : pos > s.size
    · rw [if_pos h]
      exact (if_pos h).symm
    · rw [if_neg h]
      have hn : nextS (.insertCN pos buf n) (foot s) = { reserveF (s.size + n + 1) (foot s) with size := s.size + n } := if_neg h
      rw [hn]
      have := (Does.bind (does_reserve .trivial (s.size + n + 1)) fun _ => does_insertAt pos buf n).acts s
      have hf : (reserveF (s.size + n + 1) (foot s)).size = s.size := by unfold reserveF; split <;> rfl
      simp only [Function.comp, hf] at this
      exact this
  | plus w =>
    intro s
    simp only [Str.SOp.run]
    have hw := Does.forUp (does_writeBody 0 w) 0 w.length (Str.blank w.length (w.length + 1) {})
    unfold Str.ofCount
    cases e : forUp (Str.writeBody 0 w) 0 w.length (Str.blank w.length (w.length + 1) {}) with
    | ub u => trivial
    | thrown t => rw [e] at hw; exact hw.elim
    | ok b o =>
      rw [e] at hw
      have ho : o.size = w.length := congrArg Foot.size hw
      have := (does_pushes (fun i => Does.still_bind (does_readOf o i) fun c => does_push .trivial c) 0 o.size).acts s
      rw [ho] at this
      simp only [Str.plusEq, ho]
      exact this

theorem runOps_footS (ops : List Str.SOp) {s t : Str} {evs : List Bool} (h : Str.runOps ops s = .ok (t, evs)) :
    foot t = ops.foldl (fun x op => nextS op x) (foot s) := by
  induction ops generalizing s evs with
  | nil => cases h; rfl
  | cons op ops ih =>
    simp only [Str.runOps] at h
    have ha := acts_sop op s
    cases e : op.run s with
    | ub w => rw [e] at h; cases h
    | ok b u =>
      rw [e] at h ha
      obtain ⟨r, hr, hx⟩ := map_ok h
      cases hx
      rw [ih hr, ha]
      rfl
    | thrown u =>
      rw [e] at h ha
      obtain ⟨r, hr, hx⟩ := map_ok h
      cases hx
      rw [ih hr, ha]
      rfl

/-! ### Amortisation -/

/-- what has been saved up for the next relocation -/
def pot (x : Foot) : Nat := 2 * x.size - (x.cap - 1)

theorem next_pot {op : VecS.Op α} {x : Foot} (ho : asksCap op = false) (hi : x.size < x.cap ∨ x.size = 0) :
    ((next op x).size < (next op x).cap ∨ (next op x).size = 0) ∧ (next op x).reloc + pot (next op x) ≤ x.reloc + pot x + 2 * adds op := by
  obtain ⟨n, c, r, a⟩ := x
  cases op <;> simp only [asksCap, Bool.true_eq_false] at ho <;>
    simp only [next, pushF, reserveF, adds, pot] at hi ⊢ <;> (repeat' split) <;> (try simp only [or_true, true_and]) <;> omega

theorem fold_pot (ops : List (VecS.Op α)) {x : Foot} (ho : ∀ op ∈ ops, asksCap op = false) (hi : x.size < x.cap ∨ x.size = 0) :
    (ops.foldl (fun x op => next op x) x).reloc ≤ x.reloc + pot x + 2 * addsAll ops := by
  induction ops generalizing x with
  | nil => simp only [List.foldl_nil]; omega
  | cons op ops ih =>
    obtain ⟨h1, h2⟩ := next_pot (ho op (by simp)) hi
    have := ih (fun o h => ho o (by simp [h])) h1
    simp only [List.foldl_cons, addsAll, List.map_cons, List.sum_cons] at this ⊢
    omega

theorem next_alloc {op : VecS.Op α} {x : Foot} (ho : asksCap op = false) (hi : x.size < x.cap ∨ x.size = 0)
    (ha : (x.cap = 0 → x.alloc = 0) ∧ (x.cap = 1 → x.alloc ≤ 1) ∧ (2 ≤ x.cap → 2 ^ x.alloc ≤ 4 * (x.cap - 1))) :
    ((next op x).cap = 0 → (next op x).alloc = 0) ∧ ((next op x).cap = 1 → (next op x).alloc ≤ 1) ∧
      (2 ≤ (next op x).cap → 2 ^ (next op x).alloc ≤ 4 * ((next op x).cap - 1)) := by
  obtain ⟨h0, h1, h2⟩ := ha
  have key : ∀ c, 2 * (x.cap - 1) ≤ c - 1 → 2 ≤ c → 2 ^ (x.alloc + 1) ≤ 4 * (c - 1) := by
    intro c hc hc2
    rw [Nat.pow_succ]
    by_cases e0 : x.cap = 0
    · rw [h0 e0]; omega
    · by_cases e1 : x.cap = 1
      · have := h1 e1
        have : 2 ^ x.alloc ≤ 2 ^ 1 := Nat.pow_le_pow_right (by omega) this
        omega
      · have := h2 (by omega)
        omega
  cases op <;> simp only [asksCap, Bool.true_eq_false] at ho <;>
    simp only [next, pushF, reserveF] <;> (repeat' split) <;>
    first
    | exact ⟨h0, h1, h2⟩
    | refine ⟨fun h => by simp only at h; omega, fun h => by simp only at h ⊢; omega, fun h => key _ (by simp only; omega) h⟩

theorem fold_alloc (ops : List (VecS.Op α)) {x : Foot} (ho : ∀ op ∈ ops, asksCap op = false) (hi : x.size < x.cap ∨ x.size = 0)
    (ha : (x.cap = 0 → x.alloc = 0) ∧ (x.cap = 1 → x.alloc ≤ 1) ∧ (2 ≤ x.cap → 2 ^ x.alloc ≤ 4 * (x.cap - 1))) :
    2 ^ (ops.foldl (fun x op => next op x) x).alloc ≤ max 2 (4 * ((ops.foldl (fun x op => next op x) x).cap - 1)) := by
  induction ops generalizing x with
  | nil =>
    obtain ⟨h0, h1, h2⟩ := ha
    simp only [List.foldl_nil]
    by_cases e0 : x.cap = 0
    · rw [h0 e0]; omega
    · by_cases e1 : x.cap = 1
      · have : 2 ^ x.alloc ≤ 2 ^ 1 := Nat.pow_le_pow_right (by omega) (h1 e1)
        omega
      · have := h2 (by omega)
        omega
  | cons op ops ih => exact ih (fun o h => ho o (by simp [h])) (next_pot (ho op (by simp)) hi).1 (next_alloc (ho op (by simp)) hi ha)

/-! ### Space -/

theorem next_size (op : VecS.Op α) {x : Foot} {l : List α} (h : x.size = l.length) :
    (next op x).size = ((vecStep op l).getD l).length := by
  cases op <;> simp only [next, vecStep, pushF, reserveF] <;> (repeat' split) <;>
    simp_all [List.length_take, List.length_drop] <;> omega

theorem next_cap {op : VecS.Op α} {x : Foot} (ho : ∀ n, op ≠ .reserve n) :
    (next op x).cap ≤ max x.cap (2 * (next op x).size + 1) := by
  cases op <;> simp only [next, pushF, reserveF] <;> (repeat' split) <;> simp_all <;> omega

theorem fold_cap (ops : List (VecS.Op α)) {x : Foot} {l : List α} (ho : ∀ op ∈ ops, ∀ n, op ≠ .reserve n) (h : x.size = l.length) :
    (ops.foldl (fun x op => next op x) x).cap ≤ max x.cap (2 * peak ops l + 1) := by
  induction ops generalizing x l with
  | nil => simp only [List.foldl_nil]; omega
  | cons op ops ih =>
    have h1 := next_cap (x := x) (ho op (by simp))
    have h2 := next_size op h
    have h3 := ih (fun o h => ho o (by simp [h])) h2
    have h4 : ((vecStep op l).getD l).length ≤ peak ops ((vecStep op l).getD l) := by
      cases ops with
      | nil => exact Nat.le_refl _
      | cons o os => exact Nat.le_max_left _ _
    simp only [List.foldl_cons, peak]
    omega

/-! ### Strings -/

/-- what has been saved up, for strings: a string whose capacity equals its size is relocated even by `resize` -/
def potS (x : Foot) : Nat := 2 * x.size - (x.cap - 1) + if x.cap ≤ x.size then x.size else 0

/-- one call paid for -/
def Paid (w : Nat) (x y : Foot) : Prop := y.size ≤ y.cap ∧ y.reloc + potS y ≤ x.reloc + potS x + 3 * w

theorem pushF_paid {x : Foot} (hi : x.size ≤ x.cap) : Paid 1 x (pushF x) := by
  unfold Paid pushF potS
  (repeat' split) <;> simp_all <;> omega

theorem pushes_paid (n : Nat) {x : Foot} (hi : x.size ≤ x.cap) : Paid n x (pushes n x) := by
  induction n generalizing x with
  | zero => exact ⟨hi, by simp only [pushes]; omega⟩
  | succ n ih =>
    obtain ⟨h1, h2⟩ := pushF_paid hi
    obtain ⟨h3, h4⟩ := ih h1
    exact ⟨h3, by simp only [pushes]; omega⟩

theorem next_paid {op : VecS.Op α} {x : Foot} (ho : asksCap op = false) (hi : x.size ≤ x.cap) : Paid (adds op) x (next op x) := by
  by_cases hp : (∃ i a, op = .setElem i a) ∨ op = .pop
  · rcases hp with ⟨i, a, rfl⟩ | rfl
    · exact ⟨hi, Nat.le_refl _⟩
    · refine ⟨Nat.le_trans (Nat.sub_le _ _) hi, ?_⟩
      show x.reloc + (2 * (x.size - 1) - (x.cap - 1) + if x.cap ≤ x.size - 1 then x.size - 1 else 0) ≤ x.reloc + potS x + 3 * 0
      unfold potS
      by_cases h1 : x.cap ≤ x.size
      · rw [if_pos h1]; split <;> omega
      · rw [if_neg h1, if_neg (by omega)]; omega
  unfold Paid
  cases op <;> simp only [asksCap, Bool.true_eq_false] at ho <;>
    simp only [next, pushF, reserveF, adds, potS] <;> (repeat' split) <;> simp_all <;> omega

theorem cleared_paid {x : Foot} : Paid 0 x { x with size := 0 } := by
  unfold Paid potS
  (repeat' split) <;> simp_all

theorem len_eq {buf : List Nat} (h : 0 ∈ buf) : len buf = (cChars buf).length := by
  rw [len, Str.strlen_run h]; rfl

theorem nextS_paid {op : Str.SOp} {x : Foot} (hok : sopOk op) (ho : strAppends op = true) (hi : x.size ≤ x.cap) :
    Paid (strAdds op) x (nextS op x) := by
  cases op with
  | base op => exact next_paid (by simpa [strAppends] using ho) hi
  | appendC buf =>
    have : len buf = (cChars buf).length := len_eq hok
    simp only [nextS, strAdds, this]; exact pushes_paid _ hi
  | appendN n c => exact pushes_paid _ hi
  | assignC buf =>
    have : len buf = (cChars buf).length := len_eq hok
    simp only [nextS, strAdds, this]
    have h1 := cleared_paid (x := x)
    have h2 := pushes_paid (cChars buf).length h1.1
    exact ⟨h2.1, by have := h1.2; have := h2.2; omega⟩
  | assignN n c =>
    have h1 := cleared_paid (x := x)
    have h2 := pushes_paid n h1.1
    exact ⟨h2.1, by have := h1.2; have := h2.2; simp only [nextS, strAdds]; omega⟩
  | insertC pos buf => cases ho
  | insertCN pos buf n => cases ho
  | plus w => exact pushes_paid _ hi

theorem foldS_paid (ops : List Str.SOp) {x : Foot} (hok : ∀ op ∈ ops, sopOk op) (ho : ∀ op ∈ ops, strAppends op = true)
    (hi : x.size ≤ x.cap) : (ops.foldl (fun x op => nextS op x) x).reloc ≤ x.reloc + potS x + 3 * strAddsAll ops := by
  induction ops generalizing x with
  | nil => simp only [List.foldl_nil]; omega
  | cons op ops ih =>
    obtain ⟨h1, h2⟩ := nextS_paid (hok op (by simp)) (ho op (by simp)) hi
    have := ih (fun o h => hok o (by simp [h])) (fun o h => ho o (by simp [h])) h1
    simp only [List.foldl_cons, strAddsAll, List.map_cons, List.sum_cons] at this ⊢
    omega

theorem pushes_size (n : Nat) (x : Foot) : (pushes n x).size = x.size + n := by
  induction n generalizing x with
  | zero => rfl
  | succ n ih =>
    have : (pushF x).size = x.size + 1 := by unfold pushF; split <;> rfl
    simp only [pushes, ih, this]; omega

theorem pushes_cap (n : Nat) (x : Foot) : (pushes n x).cap ≤ max x.cap (2 * (x.size + n) + 1) := by
  induction n generalizing x with
  | zero => simp only [pushes]; omega
  | succ n ih =>
    have h1 : (pushF x).size = x.size + 1 := by unfold pushF; split <;> rfl
    have h2 : (pushF x).cap ≤ max x.cap (2 * (x.size + 1) + 1) := by
      unfold pushF; (repeat' split) <;> simp only <;> omega
    have h3 := ih (pushF x)
    rw [h1] at h3
    simp only [pushes]
    omega

theorem nextS_size {op : Str.SOp} (hok : sopOk op) {x : Foot} {l : List Nat} (h : x.size = l.length) :
    (nextS op x).size = ((strStep op l).getD l).length := by
  cases op with
  | base op => exact next_size op h
  | appendC buf => simp [nextS, strStep, pushes_size, h, len_eq hok]
  | appendN n c => simp [nextS, strStep, pushes_size, h]
  | assignC buf => simp [nextS, strStep, pushes_size, len_eq hok]
  | assignN n c => simp [nextS, strStep, pushes_size]
  | insertC pos buf =>
    simp only [nextS, strStep, len_eq hok, h]
    by_cases hp : pos ≤ l.length
    · rw [if_neg (by omega), if_pos hp]; simp; omega
    · rw [if_pos (by omega), if_neg hp]; exact h
  | insertCN pos buf n =>
    have hn : n ≤ buf.length := hok
    simp only [nextS, strStep, h]
    by_cases hp : pos ≤ l.length
    · rw [if_neg (by omega), if_pos hp]; simp; omega
    · rw [if_pos (by omega), if_neg hp]; exact h
  | plus w => simp [nextS, strStep, pushes_size, h]

theorem nextS_cap {op : Str.SOp} {x : Foot} (ho : isReserve op = false) :
    (nextS op x).cap ≤ max x.cap (2 * (nextS op x).size + 1) := by
  cases op with
  | base op => exact next_cap (by intro n e; subst e; cases ho)
  | appendC buf => have := pushes_cap (len buf) x; simp only [nextS, pushes_size]; omega
  | appendN n c => have := pushes_cap n x; simp only [nextS, pushes_size]; omega
  | assignC buf => have := pushes_cap (len buf) { x with size := 0 }; simp only [nextS, pushes_size] at this ⊢; omega
  | assignN n c => have := pushes_cap n { x with size := 0 }; simp only [nextS, pushes_size] at this ⊢; omega
  | insertC pos buf => simp only [nextS, reserveF]; (repeat' split) <;> simp_all <;> omega
  | insertCN pos buf n => simp only [nextS, reserveF]; (repeat' split) <;> simp_all <;> omega
  | plus w => have := pushes_cap w.length x; simp only [nextS, pushes_size]; omega

theorem foldS_cap (ops : List Str.SOp) {x : Foot} {l : List Nat} (hok : ∀ op ∈ ops, sopOk op)
    (ho : ∀ op ∈ ops, isReserve op = false) (h : x.size = l.length) :
    (ops.foldl (fun x op => nextS op x) x).cap ≤ max x.cap (2 * strPeak ops l + 1) := by
  induction ops generalizing x l with
  | nil => simp only [List.foldl_nil]; omega
  | cons op ops ih =>
    have h1 := nextS_cap (x := x) (ho op (by simp))
    have h2 := nextS_size (hok op (by simp)) h
    have h3 := ih (fun o h => hok o (by simp [h])) (fun o h => ho o (by simp [h])) h2
    have h4 : ((strStep op l).getD l).length ≤ strPeak ops ((strStep op l).getD l) := by
      cases ops with
      | nil => exact Nat.le_refl _
      | cons o os => exact Nat.le_max_left _ _
    simp only [List.foldl_cons, strPeak]
    omega

theorem insert_paid {op : Str.SOp} {x : Foot} (ho : insertsText op = true) (hi : x.size ≤ x.cap) :
    (nextS op x).size ≤ (nextS op x).cap ∧ (nextS op x).reloc + potS (nextS op x) ≤ x.reloc + potS x + 3 * (nextS op x).size := by
  obtain ⟨n, c, r, a⟩ := x
  simp only at hi
  have key : ∀ m d q b, m ≤ d → q ≤ r + m → q + potS ⟨m, d, q, b⟩ ≤ q + (2 * m + 1) ∧ (m = 0 → potS ⟨m, d, q, b⟩ = 0) := by
    intro m d q b hm _
    unfold potS
    simp only
    constructor
    · split <;> omega
    · intro h0; subst h0; split <;> omega
  have same : r + potS ⟨n, c, r, a⟩ ≤ r + potS ⟨n, c, r, a⟩ + 3 * n := by omega
  cases op with
  | insertC pos buf =>
    simp only [nextS, reserveF]
    by_cases hp : pos > n
    · rw [if_pos hp]; exact ⟨hi, same⟩
    · rw [if_neg hp]
      by_cases hc : n + len buf > c
      · rw [if_pos hc]
        simp only
        refine ⟨Nat.le_refl _, ?_⟩
        have := key (n + len buf) (n + len buf) (r + n) (a + 1) (by omega) (by omega)
        omega
      · rw [if_neg hc]
        simp only
        refine ⟨by omega, ?_⟩
        have := key (n + len buf) c r a (by omega) (by omega)
        by_cases h0 : n + len buf = 0
        · have := this.2 h0; omega
        · omega
  | insertCN pos buf m =>
    simp only [nextS, reserveF]
    by_cases hp : pos > n
    · rw [if_pos hp]; exact ⟨hi, same⟩
    · rw [if_neg hp]
      by_cases hc : n + m + 1 > c
      · rw [if_pos hc]
        simp only
        refine ⟨by omega, ?_⟩
        have := key (n + m) (n + m + 1) (r + n) (a + 1) (by omega) (by omega)
        by_cases h0 : n + m = 0
        · have := this.2 h0; omega
        · have : potS ⟨n + m, n + m + 1, r + n, a + 1⟩ = n + m := by
            unfold potS; simp only; rw [if_neg (by omega)]; omega
          omega
      · rw [if_neg hc]
        simp only
        refine ⟨by omega, ?_⟩
        have := key (n + m) c r a (by omega) (by omega)
        by_cases h0 : n + m = 0
        · have := this.2 h0; omega
        · omega
  | base _ => cases ho
  | appendC _ => cases ho
  | appendN _ _ => cases ho
  | assignC _ => cases ho
  | assignN _ _ => cases ho
  | plus _ => cases ho

theorem foldS_all (ops : List Str.SOp) {x : Foot} {l : List Nat} (hok : ∀ op ∈ ops, sopOk op)
    (ho : ∀ op ∈ ops, strAppends op = true ∨ insertsText op = true) (hi : x.size ≤ x.cap) (h : x.size = l.length) {p : Nat}
    (hp : strPeak ops l ≤ p) :
    (ops.foldl (fun x op => nextS op x) x).reloc ≤ x.reloc + potS x + 3 * strAddsAll ops + 3 * (ops.countP insertsText * p) := by
  induction ops generalizing x l with
  | nil => simp only [List.foldl_nil]; omega
  | cons op ops ih =>
    have h2 := nextS_size (hok op (by simp)) h
    have h4 : ((strStep op l).getD l).length ≤ strPeak ops ((strStep op l).getD l) := by
      cases ops with
      | nil => exact Nat.le_refl _
      | cons o os => exact Nat.le_max_left _ _
    have h5 : strPeak ops ((strStep op l).getD l) ≤ p := Nat.le_trans (Nat.le_max_right _ _) hp
    simp only [List.foldl_cons, strAddsAll, List.map_cons, List.sum_cons, List.countP_cons]
    by_cases hs : strAppends op = true
    · obtain ⟨h1, h6⟩ := nextS_paid (hok op (by simp)) hs hi
      have h3 := ih (fun o h => hok o (by simp [h])) (fun o h => ho o (by simp [h])) h1 h2 h5
      have hf : insertsText op = false := by cases op <;> first | rfl | cases hs
      simp only [strAddsAll, hf, Bool.false_eq_true, if_false, Nat.add_zero] at h3 ⊢
      omega
    · have ht : insertsText op = true := (ho op (by simp)).resolve_left hs
      obtain ⟨h1, h6⟩ := insert_paid ht hi
      have h3 := ih (fun o h => hok o (by simp [h])) (fun o h => ho o (by simp [h])) h1 h2 h5
      simp only [strAddsAll, ht, if_true, Nat.add_mul, Nat.one_mul] at h3 ⊢
      omega

/-! ### Starting points -/

theorem fillLoop_foot (l : List α) (i : Nat) : Does id (fillLoop i l) := by
  induction l generalizing i with
  | nil => exact Does.pure ()
  | cons a l ih => exact Does.still_bind (Does.onMem (quiet_construct i a)) fun _ => ih (i + 1)

/-- a vector after its constructor -/
def initFoot : Option (List α) → Foot
  | none => ⟨0, 0, 0, 0⟩
  | some l => ⟨l.length, l.length + 1, 0, 1⟩

theorem session_foot {k : Kind} {init : Option (List α)} {ops : List (VecS.Op α)} {s : VecS α} {evs : List Bool}
    (h : VecS.session k init ops = .ok (s, evs)) :
    foot s = ops.foldl (fun x op => next op x) (initFoot init) := by
  cases init with
  | none => exact runOps_foot k ops h
  | some l =>
    simp only [VecS.session] at h
    have hf := fillLoop_foot l 0 ⟨⟨List.replicate (l.length + 1) .raw, { alloc := 1 }⟩, .block, l.length, l.length + 1⟩
    unfold VecS.ofList at h
    cases e : fillLoop 0 l ⟨⟨List.replicate (l.length + 1) .raw, { alloc := 1 }⟩, .block, l.length, l.length + 1⟩ with
    | ok b t =>
      rw [e] at hf
      rw [e] at h
      rw [runOps_foot k ops h, hf]
      rfl
    | thrown t => rw [e] at hf; exact hf.elim
    | ub w => rw [e] at h; cases h

/-- capacity a constructor of `String` asks for -/
def initCap : Str.Init → Nat
  | .default => 0
  | .cstr buf => (cChars buf).length + 1
  | .count _ n => n + 1
  | .fill n _ => n

theorem sessionS_foot {init : Str.Init} (hi : initOk init) {ops : List Str.SOp} {s : Str} {evs : List Bool}
    (h : Str.session init ops = .ok (s, evs)) :
    ∃ a, foot s = ops.foldl (fun x op => nextS op x) ⟨(strInit init).length, initCap init, 0, a⟩ := by
  have hs : ∃ a, (∃ b t, init.run = .ok b t ∧ foot t = ⟨(strInit init).length, initCap init, 0, a⟩) ∨ ∃ w, init.run = .ub w := by
    cases init with
    | default => exact ⟨0, .inl ⟨(), _, rfl, rfl⟩⟩
    | cstr buf =>
      refine ⟨1, ?_⟩
      simp only [Str.Init.run, Str.ofCStr, Str.strlen_run hi]
      exact (Does.forUp (does_writeBody 0 buf) 0 (cChars buf).length).cases _
    | count buf n =>
      refine ⟨1, ?_⟩
      have hl : (strInit (.count buf n)).length = n := by
        have : n ≤ buf.length := hi
        simp [strInit]; omega
      rw [hl]
      exact (Does.forUp (does_writeBody 0 buf) 0 n).cases (Str.blank n (n + 1) {})
    | fill n c =>
      refine ⟨1, ?_⟩
      have hl : (strInit (.fill n c)).length = n := by simp [strInit]
      rw [hl]
      exact (Does.forUp (fun i => Does.onMem (quiet_assign .trivial i c)) 0 n).cases (Str.blank n n {})
  obtain ⟨a, hs⟩ := hs
  refine ⟨a, ?_⟩
  simp only [Str.session] at h
  rcases hs with ⟨b, t, e, hs⟩ | ⟨w, e⟩
  · rw [e] at h
    rw [runOps_footS ops h, hs]
  · rw [e] at h
    cases h

/-! ### Insertion of texts at the end -/

theorem fold_inserts (c : Nat) (hc : c ≠ 0) (n : Nat) (a : Nat) :
    ∃ b, ((List.range n).map fun i => Str.SOp.insertC i [c, 0]).foldl (fun x op => nextS op x) ⟨0, 0, 0, a⟩ =
      ⟨n, n, n * (n - 1) / 2, b⟩ := by
  induction n with
  | zero => exact ⟨a, rfl⟩
  | succ n ih =>
    obtain ⟨b, hb⟩ := ih
    rw [List.range_succ, List.map_append, List.foldl_append, hb]
    refine ⟨b + 1, ?_⟩
    have hl : len [c, 0] = 1 := by simp [len, Str.strlen, hc]
    have hq : n * (n - 1) / 2 + n = (n + 1) * (n + 1 - 1) / 2 := by
      cases n with
      | zero => rfl
      | succ m =>
        simp only [Nat.add_sub_cancel]
        have : (m + 1 + 1) * (m + 1) = (m + 1) * m + 2 * (m + 1) := by
          rw [Nat.add_mul (m + 1) 1, Nat.mul_succ (m + 1) m]; omega
        rw [this, Nat.add_mul_div_left _ _ (by omega)]
    simp only [List.map_cons, List.map_nil, List.foldl_cons, List.foldl_nil, nextS, hl, reserveF]
    simp [hq]

end Growth
end Efp
