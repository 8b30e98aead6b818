import Verif.HappensBefore

/-!
# The accesses the race theorems speak about are all there are (C31, C34, C78, C124)

C31, C34, C78 and C124 say of the statements counted as accesses that they exclude each other.  Here: what is not counted as
an access really is none.  A step that is not counted as reading a location does the same whatever that location holds, and
a step that is not counted as modifying it leaves it alone; a step that is not counted as an operation on the lock neither
depends on the lock nor changes it.
-/

namespace Efp.Props

open Efp Conc

variable {α : Type}

/-! ## BlockingQ -/

section Blocking
open Blocking

private theorem blocking_run (Q : QImpl α) (s : Blocking.State Q) (t : Nat) (p : Blocking.PC α) (q : Q.St)
    (h : p.accesses = false) :
    Blocking.runPC t { s with q := q } p = (Blocking.runPC t s p).map fun s' => { s' with q := q } := by
  cases p <;> simp_all [Blocking.PC.accesses, Blocking.runPC, Blocking.State.goto, Blocking.State.emit] <;> split <;> rfl

/-- **C31.** A statement of `BlockingQ` that is not counted as an access of the queue does the same whatever the queue
contains, and leaves it alone. -/
theorem C31_accesses_complete (Q : QImpl α) (s : Blocking.State Q) (a : Blocking.Act α) (q : Q.St)
    (h : ∀ t p, a = .run t → s.pcs[t]? = some p → p.accesses = false) :
    Blocking.step { s with q := q } a = (Blocking.step s a).map fun s' => { s' with q := q } := by
  cases a with
  | callEnq t b => simp only [Blocking.step]; split <;> simp [Blocking.State.goto, Blocking.State.emit]
  | callDeq t => simp only [Blocking.step]; split <;> simp [Blocking.State.goto, Blocking.State.emit]
  | run t =>
    simp only [Blocking.step]
    cases hp : s.pcs[t]? with
    | none => simp
    | some p => exact blocking_run Q s t p q (h t p rfl hp)
  | notify t w =>
    simp only [Blocking.step]
    split
    · cases w with
      | none => simp only; split <;> simp [Blocking.State.goto]
      | some w => simp only; split <;> simp [Blocking.State.goto]
    · rfl
  | spurious t => simp only [Blocking.step]; split <;> simp [Blocking.State.goto]

/-- the consequence for one step: the queue is unchanged -/
theorem C31_queue_unchanged (Q : QImpl α) (s s' : Blocking.State Q) (a : Blocking.Act α)
    (h : ∀ t p, a = .run t → s.pcs[t]? = some p → p.accesses = false) (hs : Blocking.step s a = some s') : s'.q = s.q := by
  have h' := C31_accesses_complete Q s a s.q h
  have e : ({ s with q := s.q } : Blocking.State Q) = s := rfl
  rw [e, hs] at h'
  have h2 := congrArg (Option.map Blocking.State.q) h'
  exact Option.some.inj h2

/-- **C124.** Of the operations recorded for a step of `BlockingQ`: without an access the step does the same whatever the queue
contains; without a modification it leaves the queue alone. -/
theorem C124_blocking_accesses (Q : QImpl α) (s : Blocking.State Q) (a : Blocking.Act α) :
    ((∀ t w, (t, Spec.Op.access () w) ∉ Blocking.ops s a) → ∀ q : Q.St,
      Blocking.step { s with q := q } a = (Blocking.step s a).map fun s' => { s' with q := q }) ∧
    ((∀ t, (t, Spec.Op.access () true) ∉ Blocking.ops s a) → ∀ s', Blocking.step s a = some s' → s'.q = s.q) := by
  constructor
  · intro h q
    refine C31_accesses_complete Q s a q ?_
    rintro t p rfl hp
    simp only [Blocking.ops, hp] at h
    cases p <;> simp [Blocking.opsPC, Blocking.PC.accesses] at h ⊢
    by_cases he : Q.empty s.q = true <;> simp [he] at h
  · intro h s' hs
    cases a with
    | run t =>
      simp only [Blocking.step] at hs
      cases hp : s.pcs[t]? with
      | none => simp [hp] at hs
      | some p =>
        simp only [hp] at hs
        simp only [Blocking.ops, hp] at h
        cases p <;> simp_all [Blocking.opsPC, Blocking.runPC] <;> try (obtain ⟨_, rfl⟩ := hs; rfl)
        all_goals first
          | (rw [← hs]; rfl)
          | (split at hs <;> simp only [Option.some.injEq] at hs <;> rw [← hs] <;> rfl)
    | _ => exact C31_queue_unchanged Q s s' _ (by intro t p he; cases he) hs

/-- **C124.** A step of `BlockingQ` recorded without an operation on the mutex neither depends on who holds it nor changes it;
one recorded as taking it finds it free and leaves it with the thread; one recorded as releasing it leaves it free. -/
theorem C124_blocking_mutex (Q : QImpl α) (s : Blocking.State Q) (a : Blocking.Act α) :
    ((∀ x ∈ Blocking.ops s a, x.2.onLock = false) → ∀ l,
      Blocking.step { s with lock := l } a = (Blocking.step s a).map fun s' => { s' with lock := l }) ∧
    (∀ t s', (t, Spec.Op.acquire) ∈ Blocking.ops s a → Blocking.step s a = some s' → s.lock = none ∧ s'.lock = some t) ∧
    (∀ t s', (t, Spec.Op.release) ∈ Blocking.ops s a → Blocking.step s a = some s' → s'.lock = none) := by
  refine ⟨?_, ?_, ?_⟩
  · intro h l
    cases a with
    | callEnq t b => simp only [Blocking.step]; split <;> simp [Blocking.State.goto, Blocking.State.emit]
    | callDeq t => simp only [Blocking.step]; split <;> simp [Blocking.State.goto, Blocking.State.emit]
    | run t =>
      simp only [Blocking.step]
      cases hp : s.pcs[t]? with
      | none => simp
      | some p =>
        simp only [Blocking.ops, hp] at h
        cases p <;> simp [Blocking.opsPC, Blocking.runPC, Spec.Op.onLock, Blocking.State.goto, Blocking.State.emit] at h ⊢
        · split <;> rfl
        · by_cases he : Q.empty s.q = true
          · exfalso; simp [he] at h
          · simp [he]
        · split <;> rfl
    | notify t w =>
      simp only [Blocking.step]
      split
      · cases w with
        | none => simp only; split <;> simp [Blocking.State.goto]
        | some w => simp only; split <;> simp [Blocking.State.goto]
      · rfl
    | spurious t => simp only [Blocking.step]; split <;> simp [Blocking.State.goto]
  · intro u s' h hs
    cases a with
    | run t =>
      simp only [Blocking.step] at hs
      cases hp : s.pcs[t]? with
      | none => simp [hp] at hs
      | some p =>
        simp only [hp] at hs
        simp only [Blocking.ops, hp] at h
        cases p <;> simp [Blocking.opsPC, Blocking.runPC, Blocking.State.goto] at h hs
        · obtain ⟨hl, rfl⟩ := hs; exact ⟨hl, by simp [h]⟩
        · obtain ⟨hl, rfl⟩ := hs; exact ⟨hl, by simp [h]⟩
        · revert h; split <;> simp
        · obtain ⟨hl, rfl⟩ := hs; exact ⟨hl, by simp [h]⟩
    | _ => simp [Blocking.ops] at h
  · intro u s' h hs
    cases a with
    | run t =>
      simp only [Blocking.step] at hs
      cases hp : s.pcs[t]? with
      | none => simp [hp] at hs
      | some p =>
        simp only [hp] at hs
        simp only [Blocking.ops, hp] at h
        cases p <;> simp [Blocking.opsPC, Blocking.runPC, Blocking.State.goto, Blocking.State.emit] at h hs
        · rw [← hs]
        · by_cases he : Q.empty s.q = true
          · simp [he] at hs; rw [← hs]
          · simp [he] at h
        · rw [← hs]
    | _ => simp [Blocking.ops] at h

end Blocking

/-! ## NonBlockingQ -/

/-- **C78.** A statement of `NonBlockingQ` that is not counted as reading the queue does the same whatever the queue contains,
and one that is not counted as modifying it leaves it alone. -/
theorem C78_accesses_complete (Q : QImpl α) (s : NonBlocking.State Q) (a : NonBlocking.Act α) :
    ((∀ t p, a = .run t → s.pcs[t]? = some p → p.reads = false) → ∀ q : Q.St,
      NonBlocking.step { s with q := q } a = (NonBlocking.step s a).map fun s' => { s' with q := q }) ∧
    ((∀ t p, a = .run t → s.pcs[t]? = some p → p.writes = false) → ∀ s', NonBlocking.step s a = some s' → s'.q = s.q) := by
  constructor
  · intro h q
    cases a with
    | run t =>
      simp only [NonBlocking.step]
      cases hp : s.pcs[t]? with
      | none => simp
      | some p =>
        have hr := h t p rfl hp
        cases p <;> simp_all [NonBlocking.PC.reads, NonBlocking.runPC, NonBlocking.State.goto, NonBlocking.State.emit] <;>
          split <;> rfl
    | _ => simp only [NonBlocking.step]; split <;> simp [NonBlocking.State.goto, NonBlocking.State.emit]
  · intro h s' hs
    cases a with
    | run t =>
      simp only [NonBlocking.step] at hs
      cases hp : s.pcs[t]? with
      | none => simp [hp] at hs
      | some p =>
        have hr := h t p rfl hp
        simp only [hp] at hs
        cases p <;> simp_all [NonBlocking.PC.writes, NonBlocking.runPC] <;> try (obtain ⟨_, rfl⟩ := hs; rfl)
        all_goals first
          | (rw [← hs]; rfl)
          | (split at hs <;> simp only [Option.some.injEq] at hs <;> rw [← hs] <;> rfl)
    | _ =>
      simp only [NonBlocking.step] at hs
      split at hs
      · simp only [Option.some.injEq] at hs; rw [← hs]; rfl
      · simp at hs

/-- **C124.** The operations recorded for a step of `NonBlockingQ` are complete, too: accesses of the queue, and operations on
the mutex. -/
theorem C124_nonblocking_ops (Q : QImpl α) (s : NonBlocking.State Q) (a : NonBlocking.Act α) :
    ((∀ t w, (t, Spec.Op.access () w) ∉ NonBlocking.ops s a) → ∀ q : Q.St,
      NonBlocking.step { s with q := q } a = (NonBlocking.step s a).map fun s' => { s' with q := q }) ∧
    ((∀ t, (t, Spec.Op.access () true) ∉ NonBlocking.ops s a) → ∀ s', NonBlocking.step s a = some s' → s'.q = s.q) ∧
    ((∀ x ∈ NonBlocking.ops s a, x.2.onLock = false) → ∀ l,
      NonBlocking.step { s with lock := l } a = (NonBlocking.step s a).map fun s' => { s' with lock := l }) ∧
    (∀ t s', (t, Spec.Op.acquire) ∈ NonBlocking.ops s a → NonBlocking.step s a = some s' → s.lock = none ∧ s'.lock = some t) ∧
    (∀ t s', (t, Spec.Op.release) ∈ NonBlocking.ops s a → NonBlocking.step s a = some s' → s'.lock = none) := by
  refine ⟨?_, ?_, ?_, ?_, ?_⟩
  · intro h q
    refine (C78_accesses_complete Q s a).1 ?_ q
    rintro t p rfl hp
    simp only [NonBlocking.ops, hp] at h
    cases p <;> simp_all [NonBlocking.opsPC, NonBlocking.PC.reads]
  · intro h
    refine (C78_accesses_complete Q s a).2 ?_
    rintro t p rfl hp
    simp only [NonBlocking.ops, hp] at h
    cases p <;> simp_all [NonBlocking.opsPC, NonBlocking.PC.writes]
  · intro h l
    cases a with
    | run t =>
      simp only [NonBlocking.step]
      cases hp : s.pcs[t]? with
      | none => simp
      | some p =>
        simp only [NonBlocking.ops, hp] at h
        cases p <;>
          simp [NonBlocking.opsPC, NonBlocking.runPC, Spec.Op.onLock, NonBlocking.State.goto, NonBlocking.State.emit] at h ⊢ <;>
          split <;> rfl
    | _ => simp only [NonBlocking.step]; split <;> simp [NonBlocking.State.goto, NonBlocking.State.emit]
  · intro u s' h hs
    cases a with
    | run t =>
      simp only [NonBlocking.step] at hs
      cases hp : s.pcs[t]? with
      | none => simp [hp] at hs
      | some p =>
        simp only [hp] at hs
        simp only [NonBlocking.ops, hp] at h
        cases p <;> simp [NonBlocking.opsPC, NonBlocking.runPC, NonBlocking.State.goto] at h hs <;>
          (obtain ⟨hl, rfl⟩ := hs; exact ⟨hl, by simp [h]⟩)
    | _ => simp [NonBlocking.ops] at h
  · intro u s' h hs
    cases a with
    | run t =>
      simp only [NonBlocking.step] at hs
      cases hp : s.pcs[t]? with
      | none => simp [hp] at hs
      | some p =>
        simp only [hp] at hs
        simp only [NonBlocking.ops, hp] at h
        cases p <;> simp [NonBlocking.opsPC, NonBlocking.runPC, NonBlocking.State.goto, NonBlocking.State.emit] at h hs <;> rw [← hs]
    | _ => simp [NonBlocking.ops] at h

/-! ## DoubleBuffer -/

section DoubleBuffer
open DBuf

/-- **C34.** The accesses of a step of `DoubleBuffer` are complete: a step that is not counted as reading or modifying one of
the two pointers or one of the two buffers does the same whatever is in it. -/
theorem C34_accesses_complete (k : Kind) (s : DBuf.State α) (a : DBuf.Act α) :
    ((∀ t w, (t, Spec.Op.access Loc.readPtr w) ∉ DBuf.ops s a) → ∀ r,
      DBuf.step k { s with rp := r } a = (DBuf.step k s a).map fun s' => { s' with rp := r }) ∧
    ((∀ t w, (t, Spec.Op.access Loc.writePtr w) ∉ DBuf.ops s a) → ∀ r,
      DBuf.step k { s with wp := r } a = (DBuf.step k s a).map fun s' => { s' with wp := r }) ∧
    (∀ b, (∀ t w, (t, Spec.Op.access (Loc.buf b) w) ∉ DBuf.ops s a) → ∀ v,
      DBuf.step k (s.setBuf b v) a = (DBuf.step k s a).map fun s' => s'.setBuf b v) := by
  refine ⟨?_, ?_, ?_⟩
  · intro h r
    cases a with
    | run t =>
      simp only [DBuf.step]
      cases hp : s.pcs[t]? with
      | none => simp
      | some p =>
        simp only [DBuf.ops, hp] at h
        cases p <;> simp [DBuf.opsPC, DBuf.accesses, DBuf.runPC, DBuf.State.goto, DBuf.State.emit, DBuf.State.setBuf,
          DBuf.State.buf] at h ⊢
        · split <;> rfl
        · split
          · simp only [Option.map_some]; split <;> rfl
          · rfl
        · split <;> rfl
    | _ => simp only [DBuf.step]; split <;> simp [DBuf.State.goto, DBuf.State.emit]
  · intro h r
    cases a with
    | run t =>
      simp only [DBuf.step]
      cases hp : s.pcs[t]? with
      | none => simp
      | some p =>
        simp only [DBuf.ops, hp] at h
        cases p <;> simp [DBuf.opsPC, DBuf.accesses, DBuf.runPC, DBuf.State.goto, DBuf.State.emit, DBuf.State.setBuf,
          DBuf.State.buf] at h ⊢
        · split <;> rfl
        · split <;> rfl
        · split
          · simp only [Option.map_some]; split <;> rfl
          · rfl
    | _ => simp only [DBuf.step]; split <;> simp [DBuf.State.goto, DBuf.State.emit]
  · intro b h v
    have hpcs : (s.setBuf b v).pcs = s.pcs := by cases b <;> rfl
    have hg : ∀ (s : DBuf.State α) t p, (s.setBuf b v).goto t p = (s.goto t p).setBuf b v := by intro s t p; cases b <;> rfl
    have he : ∀ (s : DBuf.State α) t e, (s.setBuf b v).emit t e = (s.emit t e).setBuf b v := by intro s t p; cases b <;> rfl
    have hb : ∀ p, p ≠ b → (s.setBuf b v).buf p = s.buf p := by intro p hp; cases b <;> cases p <;> simp_all [DBuf.State.buf, DBuf.State.setBuf]
    have hs : ∀ p w, p ≠ b → (s.setBuf b v).setBuf p w = (s.setBuf p w).setBuf b v := by
      intro p w hp; cases b <;> cases p <;> simp_all [DBuf.State.setBuf]
    have hwp : (s.setBuf b v).wp = s.wp := by cases b <;> rfl
    have hrp : (s.setBuf b v).rp = s.rp := by cases b <;> rfl
    have hfl : (s.setBuf b v).flag = s.flag := by cases b <;> rfl
    have hf : ∀ f, ({ s.setBuf b v with flag := f } : DBuf.State α) = ({ s with flag := f } : DBuf.State α).setBuf b v := by
      intro f; cases b <;> rfl
    cases a with
    | run t =>
      simp only [DBuf.step, hpcs]
      cases hp : s.pcs[t]? with
      | none => simp
      | some p =>
        simp only [DBuf.ops, hp] at h
        cases p with
        | idle => rfl
        | enqSpin a => simp only [DBuf.runPC, hfl, hf, hg]; split <;> rfl
        | swapSpin => simp only [DBuf.runPC, hfl, hf, hg]; split <;> rfl
        | enqUnlock => simp only [DBuf.runPC, hf, hg, he, Option.map_some]
        | swapUnlock => simp only [DBuf.runPC, hf, hg, he, Option.map_some]
        | swap => cases b <;> rfl
        | deqRet v => simp only [DBuf.runPC, hg, he, Option.map_some]
        | lookRet v => simp only [DBuf.runPC, hg, he, Option.map_some]
        | enqPush a =>
          have hn : s.wp ≠ b := by rintro rfl; exact h t true (by simp [DBuf.opsPC, DBuf.accesses])
          simp only [DBuf.runPC, hwp, hb _ hn, hs _ _ hn, hg, he]
          split
          · rfl
          · cases b <;> rfl
        | deq =>
          have hn : s.rp ≠ b := by rintro rfl; exact h t true (by simp [DBuf.opsPC, DBuf.accesses])
          simp only [DBuf.runPC, hrp, hb _ hn, hs _ _ hn, hg, he]
          split
          · rfl
          · cases b <;> rfl
        | look =>
          have hn : s.rp ≠ b := by rintro rfl; exact h t false (by simp [DBuf.opsPC, DBuf.accesses])
          simp only [DBuf.runPC, hrp, hb _ hn, hg, he, Option.map_some]
    | _ => simp only [DBuf.step, hpcs, hg, he]; split <;> rfl

/-- **C34.** A step of `DoubleBuffer` that is not counted as modifying one of the two pointers or one of the two buffers leaves
it alone. -/
theorem C34_writes_complete (k : Kind) (s s' : DBuf.State α) (a : DBuf.Act α) (hs : DBuf.step k s a = some s') :
    ((∀ t, (t, Spec.Op.access Loc.readPtr true) ∉ DBuf.ops s a) → s'.rp = s.rp) ∧
    ((∀ t, (t, Spec.Op.access Loc.writePtr true) ∉ DBuf.ops s a) → s'.wp = s.wp) ∧
    (∀ b, (∀ t, (t, Spec.Op.access (Loc.buf b) true) ∉ DBuf.ops s a) → s'.buf b = s.buf b) := by
  have key : ∀ x y : DBuf.State α, some x = some y → y = x := fun x y h => (Option.some.inj h).symm
  cases a with
  | run t =>
    simp only [DBuf.step] at hs
    cases hp : s.pcs[t]? with
    | none => simp [hp] at hs
    | some p =>
      simp only [hp] at hs
      simp only [DBuf.ops, hp]
      cases p with
      | idle => simp [DBuf.runPC] at hs
      | enqSpin a =>
        simp only [DBuf.runPC] at hs
        split at hs
        · simp at hs
        · cases key _ _ hs; exact ⟨fun _ => rfl, fun _ => rfl, fun _ _ => rfl⟩
      | swapSpin =>
        simp only [DBuf.runPC] at hs
        split at hs
        · simp at hs
        · cases key _ _ hs; exact ⟨fun _ => rfl, fun _ => rfl, fun _ _ => rfl⟩
      | enqUnlock => cases key _ _ hs; exact ⟨fun _ => rfl, fun _ => rfl, fun _ _ => rfl⟩
      | swapUnlock => cases key _ _ hs; exact ⟨fun _ => rfl, fun _ => rfl, fun _ _ => rfl⟩
      | deqRet v => cases key _ _ hs; exact ⟨fun _ => rfl, fun _ => rfl, fun _ _ => rfl⟩
      | lookRet v => cases key _ _ hs; exact ⟨fun _ => rfl, fun _ => rfl, fun _ _ => rfl⟩
      | look => cases key _ _ hs; exact ⟨fun _ => rfl, fun _ => rfl, fun _ _ => rfl⟩
      | swap =>
        refine ⟨fun h => ?_, fun h => ?_, fun b _ => ?_⟩
        · exact absurd (by simp [DBuf.opsPC, DBuf.accesses]) (h t)
        · exact absurd (by simp [DBuf.opsPC, DBuf.accesses]) (h t)
        · cases key _ _ hs; rfl
      | enqPush a =>
        simp only [DBuf.runPC] at hs
        split at hs
        · cases key _ _ hs
          refine ⟨fun _ => ?_, fun _ => ?_, fun b h => ?_⟩
          · simp only [DBuf.State.emit, DBuf.State.goto, DBuf.State.setBuf]; split <;> rfl
          · simp only [DBuf.State.emit, DBuf.State.goto, DBuf.State.setBuf]; split <;> rfl
          · have hn : s.wp ≠ b := by rintro rfl; exact h t (by simp [DBuf.opsPC, DBuf.accesses])
            cases hw : s.wp <;> cases b <;> simp_all [DBuf.State.emit, DBuf.State.goto, DBuf.State.setBuf, DBuf.State.buf]
        · cases key _ _ hs; exact ⟨fun _ => rfl, fun _ => rfl, fun _ _ => rfl⟩
      | deq =>
        simp only [DBuf.runPC] at hs
        split at hs
        · cases key _ _ hs
          refine ⟨fun _ => ?_, fun _ => ?_, fun b h => ?_⟩
          · simp only [DBuf.State.emit, DBuf.State.goto, DBuf.State.setBuf]; split <;> rfl
          · simp only [DBuf.State.emit, DBuf.State.goto, DBuf.State.setBuf]; split <;> rfl
          · have hn : s.rp ≠ b := by rintro rfl; exact h t (by simp [DBuf.opsPC, DBuf.accesses])
            cases hw : s.rp <;> cases b <;> simp_all [DBuf.State.emit, DBuf.State.goto, DBuf.State.setBuf, DBuf.State.buf]
        · cases key _ _ hs; exact ⟨fun _ => rfl, fun _ => rfl, fun _ _ => rfl⟩
  | _ =>
    simp only [DBuf.step] at hs
    split at hs
    · cases key _ _ hs; exact ⟨fun _ => rfl, fun _ => rfl, fun _ _ => rfl⟩
    · simp at hs

/-- **C124.** A step of `DoubleBuffer` recorded without an operation on the spinlock neither depends on the flag nor changes it;
one recorded as taking it finds the flag clear and sets it; one recorded as releasing it clears it. -/
theorem C124_double_buffer_spinlock (k : Kind) (s : DBuf.State α) (a : DBuf.Act α) :
    ((∀ x ∈ DBuf.ops s a, x.2.onLock = false) → ∀ f,
      DBuf.step k { s with flag := f } a = (DBuf.step k s a).map fun s' => { s' with flag := f }) ∧
    (∀ t s', (t, Spec.Op.acquire) ∈ DBuf.ops s a → DBuf.step k s a = some s' → s.flag = false ∧ s'.flag = true) ∧
    (∀ t s', (t, Spec.Op.release) ∈ DBuf.ops s a → DBuf.step k s a = some s' → s'.flag = false) := by
  refine ⟨?_, ?_, ?_⟩
  · intro h f
    cases a with
    | run t =>
      simp only [DBuf.step]
      cases hp : s.pcs[t]? with
      | none => simp
      | some p =>
        simp only [DBuf.ops, hp] at h
        cases p <;> simp [DBuf.opsPC, Spec.Op.onLock, DBuf.runPC, DBuf.State.goto, DBuf.State.emit, DBuf.State.setBuf,
          DBuf.State.buf] at h ⊢
        · split
          · simp only [Option.map_some]; split <;> rfl
          · rfl
        · split
          · simp only [Option.map_some]; split <;> rfl
          · rfl
    | _ => simp only [DBuf.step]; split <;> simp [DBuf.State.goto, DBuf.State.emit]
  · intro u s' h hs
    cases a with
    | run t =>
      simp only [DBuf.step] at hs
      cases hp : s.pcs[t]? with
      | none => simp [hp] at hs
      | some p =>
        simp only [hp] at hs
        simp only [DBuf.ops, hp] at h
        cases p <;> simp [DBuf.opsPC, DBuf.accesses, DBuf.runPC, DBuf.State.goto] at h hs <;>
          (obtain ⟨hl, rfl⟩ := hs; exact ⟨hl, rfl⟩)
    | _ => simp [DBuf.ops] at h
  · intro u s' h hs
    cases a with
    | run t =>
      simp only [DBuf.step] at hs
      cases hp : s.pcs[t]? with
      | none => simp [hp] at hs
      | some p =>
        simp only [hp] at hs
        simp only [DBuf.ops, hp] at h
        cases p <;> simp [DBuf.opsPC, DBuf.accesses, DBuf.runPC, DBuf.State.goto, DBuf.State.emit] at h hs <;> rw [← hs]
    | _ => simp [DBuf.ops] at h

/-- a producer waits for the lock (no access, takes the lock), another one holds it (modifies the queue) -/
example : ((Blocking.exec [.callEnq 0 1, .callEnq 1 2, .run 0] (Blocking.start (stdQ Nat) 2)).map fun s =>
    (Blocking.ops s (.run 1), Blocking.ops s (.run 0), s.pcs.map Blocking.PC.accesses))
    = some ([(1, .acquire)], [(0, .access () true)], [true, false]) := by decide +kernel

/-- a consumer that found the queue empty gives the mutex back in the step that tested it -/
example : ((Blocking.exec [.callDeq 0, .run 0] (Blocking.start (stdQ Nat) 1)).map fun s => Blocking.ops s (.run 0))
    = some [(0, .access () false), (0, .release)] := by decide +kernel

/-- `is_empty` reads without an operation on the mutex -/
example : ((NonBlocking.exec [.callEmpty 0] (NonBlocking.start (stdQ Nat) 1)).map fun s =>
    (NonBlocking.ops s (.run 0), s.pcs.map NonBlocking.PC.reads, s.pcs.map NonBlocking.PC.writes))
    = some ([(0, .access () false)], [true], [false]) := by decide +kernel

/-- a producer of a double buffer touches neither the read pointer nor the read buffer -/
example : ((DBuf.exec .managed [.callEnq 0 1, .run 0] (DBuf.start (α := Nat) 2 1)).map fun s => DBuf.ops s (.run 0))
    = some [(0, .access .writePtr false), (0, .access (.buf true) true)] := by decide +kernel

end DoubleBuffer

end Efp.Props
