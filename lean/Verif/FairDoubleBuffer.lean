import Verif.DoubleBufferLemmas
import Verif.FairLemmas

/-!
# Fair executions of `DoubleBuffer`
-/

namespace Efp
namespace DBuf

open Spec
open Conc (get_set phaseAt phaseAt_some)

variable {α : Type} {k : Kind} {n m : Nat} {drain : Bool} {c : Nat}

/-- the thread that takes a step inside an operation (concurrency.hpp 214-243); calls are nobody's duty -/
def Act.of : Act α → Option Nat
  | .run t => some t
  | _ => none

/-- the thread can always run -/
def PC.free : PC α → Bool
  | .idle | .enqSpin _ | .swapSpin => false
  | _ => true

/-- the thread wants the spinlock -/
def PC.waits : PC α → Bool
  | .enqSpin _ | .swapSpin => true
  | _ => false

theorem set_self {l : List (PC α)} {t : Nat} {p0 : PC α} (h : l[t]? = some p0) (p : PC α) :
    (l.set t p)[t]? = some p := by rw [get_set h, if_pos rfl]

theorem of_run {a : Act α} {t : Nat} (h : a.of = some t) : a = .run t := by
  cases a <;> simp_all [Act.of]

/-- a step of thread `t`: what it leads to, that others stay, and that it leaves the lock only with a return -/
theorem own_step {s s' : State α} {r w : List α} (hI : Inv k n drain c s r w) {t : Nat} {p : PC α}
    (h : step k s (.run t) = some s') (h0 : s.pcs[t]? = some p) :
    ∃ p', s'.pcs = s.pcs.set t p' ∧ p'.fuel < p.fuel ∧ p'.waits = false ∧
      (p.holds = true → p'.holds = true ∨ ∃ o e, retOf e = some o ∧ s'.log = s.log ++ [(t, e)]) := by
  simp only [step, h0] at h
  cases p with
  | idle => simp [runPC] at h
  | enqSpin a =>
    simp only [runPC] at h
    split at h <;> simp only [Option.some.injEq, reduceCtorEq] at h
    subst h; exact ⟨_, rfl, by simp [PC.fuel], rfl, fun hh => by simp [PC.holds] at hh⟩
  | swapSpin =>
    simp only [runPC] at h
    split at h <;> simp only [Option.some.injEq, reduceCtorEq] at h
    subst h; exact ⟨_, rfl, by simp [PC.fuel], rfl, fun hh => by simp [PC.holds] at hh⟩
  | enqPush a =>
    obtain ⟨b, hb, -⟩ := Cyclic.Vcq.pushBack_run hI.repW a
    simp only [runPC, hb, Option.some.injEq] at h
    subst h
    refine ⟨.enqUnlock, ?_, by simp [PC.fuel], rfl, fun _ => .inl rfl⟩
    show (s.setBuf s.wp b).pcs.set _ _ = _
    rw [(setBuf_fields s s.wp b).1]
  | deq =>
    obtain ⟨v, r', rfl⟩ := List.exists_cons_of_ne_nil (hI.deq _ h0)
    obtain ⟨b, hb, -⟩ := Cyclic.Vcq.popFront_run hI.repR
    simp only [runPC, hb, Option.some.injEq] at h
    subst h
    refine ⟨.deqRet v, ?_, by simp [PC.fuel], rfl, fun hh => by simp [PC.holds] at hh⟩
    show (s.setBuf s.rp b).pcs.set _ _ = _
    rw [(setBuf_fields s s.rp b).1]
  | enqUnlock =>
    simp only [runPC, Option.some.injEq] at h
    subst h; exact ⟨_, rfl, by simp [PC.fuel], rfl, fun _ => .inr ⟨_, _, rfl, rfl⟩⟩
  | swapUnlock =>
    simp only [runPC, Option.some.injEq] at h
    subst h; exact ⟨_, rfl, by simp [PC.fuel], rfl, fun _ => .inr ⟨_, _, rfl, rfl⟩⟩
  | swap =>
    simp only [runPC, Option.some.injEq] at h
    subst h; exact ⟨_, rfl, by simp [PC.fuel], rfl, fun _ => .inl rfl⟩
  | _ =>
    simp only [runPC, Option.some.injEq] at h
    subst h; exact ⟨_, rfl, by simp [PC.fuel], rfl, fun hh => by simp [PC.holds] at hh⟩

/-- any step changes the program counter of one thread -/
theorem step_pcs {s s' : State α} {r w : List α} (hI : Inv k n drain c s r w) {a : Act α} (h : step k s a = some s') :
    ∃ (t : Nat) (p p' : PC α), s.pcs[t]? = some p ∧ s'.pcs = s.pcs.set t p' ∧
      (a = .run t ∨ (a.of = none ∧ p = .idle ∧ p'.holds = false)) := by
  cases a with
  | run t =>
    cases hp : s.pcs[t]? with
    | none => simp [step, hp] at h
    | some p =>
      obtain ⟨p', h1, _⟩ := own_step hI h hp
      exact ⟨t, p, p', hp, h1, .inl rfl⟩
  | _ t =>
    simp only [step] at h
    split at h <;> simp only [Option.some.injEq, reduceCtorEq] at h
    subst h; rename_i hu
    exact ⟨t, _, _, hu, rfl, .inr ⟨rfl, rfl, rfl⟩⟩

/-- whoever holds the spinlock, or wants it while it is free, or needs none, can move -/
theorem can_move {s : State α} {r w : List α} (hI : Inv k n drain c s r w) {t : Nat} {p : PC α} (h0 : s.pcs[t]? = some p)
    (hp : p.free = true ∨ (p.waits = true ∧ s.flag = false)) : CanMove (step k) Act.of s t := by
  have run : (∃ s', runPC k t s p = some s') → CanMove (step k) Act.of s t := fun ⟨s', h⟩ =>
    ⟨.run t, rfl, by simp [step, h0, h]⟩
  cases p with
  | idle => simp [PC.free, PC.waits] at hp
  | enqSpin a =>
    have hl : s.flag = false := by simpa [PC.free, PC.waits] using hp
    exact run ⟨_, by simp only [runPC, hl]; rfl⟩
  | swapSpin =>
    have hl : s.flag = false := by simpa [PC.free, PC.waits] using hp
    exact run ⟨_, by simp only [runPC, hl]; rfl⟩
  | enqPush a =>
    obtain ⟨b, hb, -⟩ := Cyclic.Vcq.pushBack_run hI.repW a
    exact run ⟨_, by simp only [runPC, hb]; rfl⟩
  | deq =>
    obtain ⟨v, r', rfl⟩ := List.exists_cons_of_ne_nil (hI.deq _ h0)
    obtain ⟨b, hb, -⟩ := Cyclic.Vcq.popFront_run hI.repR
    exact run ⟨_, by simp only [runPC, hb]; rfl⟩
  | _ => exact run ⟨_, rfl⟩

theorem holder {s : State α} {r w : List α} (hI : Inv k n drain c s r w) {t : Nat} :
    s.pcs.findIdx? PC.holds = some t ↔ ∃ p, s.pcs[t]? = some p ∧ p.holds = true := by
  constructor
  · intro h
    obtain ⟨ht, hh, _⟩ := List.findIdx?_eq_some_iff_getElem.mp h
    exact ⟨s.pcs[t], List.getElem?_eq_getElem ht, hh⟩
  · rintro ⟨p, hp, hh⟩
    cases hf : s.pcs.findIdx? PC.holds with
    | none =>
      have := List.findIdx?_eq_none_iff.mp hf p (List.mem_of_getElem? hp)
      rw [hh] at this
      simp at this
    | some u =>
      obtain ⟨hu, hh', _⟩ := List.findIdx?_eq_some_iff_getElem.mp hf
      rw [hI.uniq u t _ _ (List.getElem?_eq_getElem hu) hp hh' hh]

theorem holder_none {s : State α} {r w : List α} (hI : Inv k n drain c s r w) (h : s.pcs.findIdx? PC.holds = none) :
    s.flag = false := by
  cases hf : s.flag with
  | false => rfl
  | true =>
    obtain ⟨t, p, hp⟩ := hI.taken hf
    rw [(holder hI).mpr ⟨p, hp⟩] at h
    simp at h

/-- DoubleBuffer as a machine with one lock -/
def guarded (k : Kind) (n : Nat) (drain : Bool) (c : Nat) : Fair.Guarded (step (α := α) k) Act.of (PC α) where
  inv := fun s => ∃ r w, Inv k n drain c s r w
  pcs := State.pcs
  lock := fun s => s.pcs.findIdx? PC.holds
  free := PC.free
  waits := PC.waits
  fuel := PC.fuel
  stay := fun {s a s' t p} ⟨_, _, hI⟩ h h0 hp ha => by
    obtain ⟨u, q, q', hu, he, hor⟩ := step_pcs hI h
    have ht : t ≠ u := by
      rintro rfl
      rcases hor with rfl | ⟨_, rfl, _⟩
      · exact ha rfl
      · rw [h0] at hu; cases hu; simp [PC.free, PC.waits] at hp
    rw [he, get_set hu, if_neg ht, h0]
  ready := fun ⟨_, _, hI⟩ h0 hp => can_move hI h0 (by
    rcases hp with h | ⟨h, h'⟩
    · exact .inl h
    · exact .inr ⟨h, holder_none hI h'⟩)
  less := fun ⟨_, _, hI⟩ h ha h0 => by
    have := of_run ha
    subst this
    obtain ⟨p', h1, h2, h3, _⟩ := own_step hI h h0
    exact ⟨p', by rw [h1]; exact set_self h0 _, h2, h3⟩
  owner := fun {s t} ⟨_, _, hI⟩ hl => by
    obtain ⟨p, hp, hh⟩ := (holder hI).mp hl
    exact ⟨p, hp, by cases p <;> simp [PC.holds] at hh <;> rfl⟩
  keep := fun {s a s' t} ⟨_, _, hI⟩ ⟨_, _, hI'⟩ hl h => by
    obtain ⟨p, hp, hh⟩ := (holder hI).mp hl
    obtain ⟨u, q, q', hu, he, hor⟩ := step_pcs hI h
    by_cases ht : t = u
    · subst ht
      cases hq : q'.holds with
      | true => exact .inr ((holder hI').mpr ⟨q', by rw [he]; exact set_self hu _, hq⟩)
      | false =>
        left
        rw [List.findIdx?_eq_none_iff]
        intro x hx
        obtain ⟨v, hv⟩ := List.getElem?_of_mem hx
        rw [he, get_set hu] at hv
        split at hv
        · cases hv; exact hq
        · rename_i hvt
          cases hxh : x.holds with
          | false => rfl
          | true => exact absurd (hI.uniq v t _ _ hv hp hxh hh) hvt
    · exact .inr ((holder hI').mpr ⟨p, by rw [he, get_set hu, if_neg ht, hp], hh⟩)

theorem step_log {s s' : State α} {a : Act α} (h : step k s a = some s') : ∃ l, s'.log = s.log ++ l := by
  cases a with
  | run u =>
    simp only [step] at h
    split at h
    · rename_i p hu
      cases p <;> simp only [runPC] at h <;> (try split at h) <;>
        simp only [Option.some.injEq, reduceCtorEq] at h <;> subst h <;>
        first
          | exact ⟨[_], rfl⟩
          | (rename_i b _; exact ⟨[_], by show (s.setBuf s.wp b).log ++ _ = _; unfold State.setBuf; split <;> rfl⟩)
          | (rename_i b _; exact ⟨[_], by show (s.setBuf s.rp b).log ++ _ = _; unfold State.setBuf; split <;> rfl⟩)
          | exact ⟨[], by simp [State.goto]⟩
    · simp at h
  | _ u =>
    simp only [step] at h
    split at h <;> simp only [Option.some.injEq, reduceCtorEq] at h
    subst h; exact ⟨_, rfl⟩

section
variable {sch : Nat → Act α}

local notation "st" => Spec.run (step k) (start n m) sch

theorem run_inv' (hn : 0 < n) (hA : ∀ i, Allowed drain c (st i) (sch i)) : ∀ i, ∃ r w, Inv k n drain c (st i) r w
  | 0 => ⟨[], [], start_inv k hn m drain c⟩
  | i + 1 => by
    obtain ⟨r, w, hI⟩ := run_inv' hn hA i
    rcases Fair.run_succ (step k) (start n m) sch i with ⟨s', h1, h2⟩ | ⟨_, h2⟩
    · rw [h2]; exact step_inv hI (hA i) h1
    · rw [h2]; exact ⟨r, w, hI⟩

theorem inside (hn : 0 < n) (hA : ∀ i, Allowed drain c (st i) (sch i)) (t : Nat) (i : Nat) (o : CallName) :
    called o t (st i).log = returned o t (st i).log +
      (if Fair.phaseOp (phaseAt PC.phase (st i).pcs t) = some o then 1 else 0) := by
  obtain ⟨r, w, hI⟩ := run_inv' hn hA i
  exact Fair.phase_count (hI.phase t) o

theorem called_mono {i j : Nat} (h : i ≤ j) (o : CallName) (t : Nat) : called o t (st i).log ≤ called o t (st j).log := by
  obtain ⟨l, hl⟩ := Fair.log_mono (s0 := start n m) (sch := sch) (log := State.log) (fun s a s' => step_log (k := k)) i (j - i)
  rw [Nat.add_sub_cancel' h] at hl
  rw [hl]
  exact Fair.called_append _ _ _ _

theorem idle_returned (hn : 0 < n) (hA : ∀ i, Allowed drain c (st i) (sch i)) {t i j : Nat} (h : i ≤ j) (hj : (st j).pcs[t]? = some .idle) (o : CallName) :
    called o t (st i).log ≤ returned o t (st j).log := by
  have h1 := called_mono (k := k) (n := n) (m := m) (sch := sch) h o t
  have h2 := inside hn hA t j o
  rw [phaseAt_some hj] at h2
  simp only [PC.phase, Fair.phaseOp, reduceCtorEq, if_false] at h2
  omega

theorem all_pcs (p : PC α) (hp : p ≠ .idle) : (guarded k n drain c).free p = true ∨ (guarded k n drain c).waits p = true := by
  cases p <;> simp [guarded, PC.free, PC.waits] at hp ⊢

/-- with a fair spinlock every call returns -/
theorem all_return (hn : 0 < n) (hA : ∀ i, Allowed drain c (st i) (sch i)) (hf : StrongFair (step k) Act.of (start n m) sch) (o : CallName) (t : Nat) :
    AllReturn (fun i => (st i).log) o t := by
  intro i
  show ∃ j, called o t (st i).log ≤ returned o t (st j).log
  cases hp : (st i).pcs[t]? with
  | none =>
    have h := inside hn hA t i o
    simp only [phaseAt, hp, Fair.phaseOp, reduceCtorEq, if_false] at h
    exact ⟨i, by omega⟩
  | some p =>
    obtain ⟨j, hij, hj⟩ := Fair.returns (guarded k n drain c) (run_inv' hn hA) hf (idle := PC.idle) all_pcs _ (Nat.le_refl _) hp
    exact ⟨j, idle_returned hn hA hij hj o⟩

/-- `dequeue` and `empty` return whatever the lock does -/
theorem unlocked_return (hn : 0 < n) (hA : ∀ i, Allowed drain c (st i) (sch i)) (hf : WeakFair (step k) Act.of (start n m) sch) {o : CallName} (ho : o = .dequeue ∨ o = .isEmpty) (t : Nat) :
    AllReturn (fun i => (st i).log) o t := by
  intro i
  show ∃ j, called o t (st i).log ≤ returned o t (st j).log
  have h := inside hn hA t i o
  cases hp : (st i).pcs[t]? with
  | none =>
    simp only [phaseAt, hp, Fair.phaseOp, reduceCtorEq, if_false] at h
    exact ⟨i, by omega⟩
  | some p =>
    rw [phaseAt_some hp] at h
    by_cases hop : Fair.phaseOp p.phase = some o
    · have hw : (guarded (α := α) k n drain c).waits p = false := by
        rcases ho with rfl | rfl <;> cases p <;> simp [PC.phase, Fair.phaseOp] at hop <;> rfl
      obtain ⟨j, hij, hj⟩ := Fair.free_returns (guarded k n drain c) (run_inv' hn hA) hf (idle := PC.idle) all_pcs _
        (Nat.le_refl _) hw hp
      exact ⟨j, idle_returned hn hA hij hj o⟩
    · simp only [hop, if_false] at h
      exact ⟨i, by omega⟩

/-- whoever gives back the spinlock returns -/
theorem release_returns (hn : 0 < n) (hA : ∀ i, Allowed drain c (st i) (sch i)) {i : Nat} (h1 : (guarded k n drain c).lock (st i) ≠ none)
    (h2 : (guarded k n drain c).lock (st (i + 1)) = none) :
    ∃ t o, Moves (step k) Act.of (start n m) sch t i ∧ returned o t (st i).log < returned o t (st (i + 1)).log := by
  obtain ⟨r, w, hI⟩ := run_inv' hn hA i
  obtain ⟨r', w', hI'⟩ := run_inv' hn hA (i + 1)
  rcases Fair.run_succ (step k) (start n m) sch i with ⟨s', h3, h4⟩ | ⟨_, h4⟩
  · rw [h4] at h2 hI' ⊢
    cases hl : (guarded k n drain c).lock (st i) with
    | none => exact absurd hl h1
    | some t =>
      obtain ⟨p, hp, hh⟩ := (holder hI).mp hl
      obtain ⟨u, q, q', hu, he, hor⟩ := step_pcs hI h3
      have ht : t = u := Decidable.byContradiction fun ht => by
        have : (guarded k n drain c).lock s' = some t := (holder hI').mpr ⟨p, by rw [he, get_set hu, if_neg ht, hp], hh⟩
        rw [this] at h2
        simp at h2
      subst ht
      rw [hp] at hu; cases hu
      rcases hor with ha | ⟨_, rfl, _⟩
      · rw [ha] at h3
        obtain ⟨p', h5, _, _, h6⟩ := own_step hI h3 hp
        rcases h6 hh with h6 | ⟨o, e, hr, hlog⟩
        · have : (guarded k n drain c).lock s' = some t := (holder hI').mpr ⟨p', by rw [h5]; exact set_self hp _, h6⟩
          rw [this] at h2
          simp at h2
        · exact ⟨t, o, ⟨by rw [ha]; rfl, by rw [ha, h3]; simp⟩, by rw [hlog]; exact Fair.returned_snoc hr _⟩
      · simp [PC.holds] at hh
  · rw [h4] at h2; exact absurd h2 h1

/-- with any scheduler that gives all threads processor time, a call returns, or calls of others return again and again -/
theorem others_return (hn : 0 < n) (hA : ∀ i, Allowed drain c (st i) (sch i)) (hf : WeakFair (step k) Act.of (start n m) sch) (o : CallName) (t i : Nat)
    (hno : ∀ j, returned o t (st j).log < called o t (st i).log) :
    InfOften fun j => ∃ u o', u ≠ t ∧ returned o' u (st j).log < returned o' u (st (j + 1)).log := by
  cases hp : (st i).pcs[t]? with
  | none =>
    have h := inside hn hA t i o
    simp only [phaseAt, hp, Fair.phaseOp, reduceCtorEq, if_false] at h
    have := hno i
    omega
  | some p =>
    rcases Fair.ends_or_waits (guarded k n drain c) (run_inv' hn hA) hf (idle := PC.idle) all_pcs hp with ⟨j, hij, hj⟩ | ⟨hw, hstay⟩
    · have := idle_returned hn hA hij hj o
      have := hno j
      omega
    · intro n'
      obtain ⟨j, hj, h1, h2⟩ := Fair.overtaken (guarded k n drain c) (run_inv' hn hA) hf hw hstay (max i n')
      obtain ⟨u, o', hm, hr⟩ := release_returns hn hA h1 h2
      refine ⟨j, by omega, u, o', ?_, hr⟩
      rintro rfl
      obtain ⟨r, w, hI⟩ := run_inv' hn hA j
      rcases Fair.run_succ (step k) (start n m) sch j with ⟨s', h3, h4⟩ | ⟨h3, _⟩
      · rw [of_run hm.1] at h3
        obtain ⟨p', h5, _, h6, _⟩ := own_step hI h3 (hstay j (by omega))
        have h7 := hstay (j + 1) (by omega)
        rw [h4] at h7
        have h8 : s'.pcs[u]? = some p := h7
        rw [h5, set_self (show (st j).pcs[u]? = some p from hstay j (by omega))] at h8
        cases h8
        have : p.waits = true := hw
        rw [this] at h6
        simp at h6
      · exact hm.2 h3

end

end DBuf
end Efp
