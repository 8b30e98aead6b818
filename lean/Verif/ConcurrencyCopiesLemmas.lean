import Verif.ConcurrencyCopies
import Verif.ConcurrencyThrowLemmas
import Verif.ThrowLemmas2

/-!
# Lemmas about throwing copies in the bounded queues and in `NonBlockingQ`
-/

namespace Efp

variable {α : Type}

namespace Spec

theorem settled_ne_nil : ∀ {es : List (Ev α)}, es ≠ [] → settled es ≠ []
  | [], h => absurd rfl h
  | [e], _ => by simp [settled]
  | e :: f :: es, _ => by
    rw [settled]
    split
    · exact settled_ne_nil (by simp)
    · simp

theorem settled_last : ∀ (es : List (Ev α)), (settled es).getLast? = es.getLast?
  | [] => rfl
  | [e] => rfl
  | e :: f :: es => by
    rw [settled]
    have ih := settled_last (f :: es)
    split
    · rw [ih, List.getLast?_cons_cons]
    · obtain ⟨x, xs, hx⟩ := List.exists_cons_of_ne_nil (settled_ne_nil (es := f :: es) (by simp))
      rw [hx] at ih ⊢
      rw [List.getLast?_cons_cons, ih, List.getLast?_cons_cons]

theorem settled_snoc : ∀ (es : List (Ev α)) (e : Ev α), settled (es ++ [e]) =
    if e.isCall = true ∧ (∃ f, es.getLast? = some f ∧ f.isCall = true) then (settled es).dropLast ++ [e]
    else settled es ++ [e]
  | [], e => by simp [settled]
  | [f], e => by
    show settled [f, e] = _
    simp only [settled, List.getLast?_singleton, Option.some.injEq]
    by_cases h1 : e.isCall = true <;> by_cases h2 : f.isCall = true <;> simp [h1, h2]
  | f :: g :: es, e => by
    have ih := settled_snoc (g :: es) e
    show settled (f :: g :: (es ++ [e])) = _
    rw [settled, settled]
    rw [List.cons_append] at ih
    rw [ih, List.getLast?_cons_cons]
    have hne := settled_ne_nil (es := g :: es) (by simp)
    by_cases h1 : (f.isCall && g.isCall) = true
    · rw [if_pos h1, if_pos h1]
    · rw [if_neg h1, if_neg h1]
      split
      · rw [List.dropLast_cons_of_ne_nil hne, List.cons_append]
      · rw [List.cons_append]

/-- an operation has been called and has not taken effect -/
def Phase.called : Phase α → Bool
  | .enqCalled _ | .deqCalled | .lookCalled | .swapCalled => true
  | _ => false

theorem phaseRun_called {es : List (Ev α)} {p : Phase α} (h : PhaseRun es p) (hp : p.called = true) :
    ∃ es' e, es = es' ++ [e] ∧ e.isCall = true ∧ PhaseRun es' .outside := by
  cases h with
  | nil => simp [Phase.called] at hp
  | @snoc es p p' e h1 h2 =>
    refine ⟨es, e, rfl, ?_, ?_⟩
    · cases h2 <;> simp_all [Phase.called, Ev.isCall]
    · cases h2 <;> first | exact h1 | simp [Phase.called] at hp

theorem phaseRun_outside {es : List (Ev α)} (h : PhaseRun es .outside) {e : Ev α} (he : es.getLast? = some e) :
    e.isCall = false := by
  generalize hp : (Phase.outside : Phase α) = p at h
  cases h with
  | nil => simp at he
  | @snoc es p p' f h1 h2 =>
    simp only [List.getLast?_append, List.getLast?_singleton, Option.some_or, Option.some.injEq] at he
    subst he
    cases h2 <;> simp_all [Ev.isCall]

end Spec

namespace Conc

open Spec

/-- the settled events of thread `t` fit its phase `φ`: a thread outside may have a call behind it that threw -/
def Settled (es : List (Ev α)) (φ : Phase α) : Prop :=
  ∃ p, PhaseRun (settled es) p ∧ (p = φ ∨ (φ = .outside ∧ p.called = true))

theorem Settled.snoc {es : List (Ev α)} {φ φ' : Phase α} (h : Settled es φ) {e : Ev α} (hs : PhaseStep φ e φ') :
    Settled (es ++ [e]) φ' := by
  obtain ⟨p, h1, h2⟩ := h
  rw [Settled, settled_snoc]
  rcases h2 with rfl | ⟨rfl, h2⟩
  · refine ⟨φ', ?_, .inl rfl⟩
    rw [if_neg]
    · exact PhaseRun.snoc h1 hs
    · rintro ⟨hc, f, hf, hfc⟩
      have : p = .outside := by cases hs <;> simp_all [Ev.isCall]
      subst this
      rw [← settled_last] at hf
      rw [phaseRun_outside h1 hf] at hfc
      simp at hfc
  · obtain ⟨es', f, e1, e2, e3⟩ := phaseRun_called h1 h2
    have hc : e.isCall = true := by cases hs <;> rfl
    have hl : es.getLast? = some f := by rw [← settled_last, e1]; simp
    rw [if_pos ⟨hc, f, hl, e2⟩, e1, List.dropLast_concat]
    exact ⟨φ', PhaseRun.snoc e3 hs, .inl rfl⟩

theorem Settled.drop {es : List (Ev α)} {φ : Phase α} (h : Settled es φ) (hp : φ.called = true) :
    Settled es .outside := by
  obtain ⟨p, h1, h2⟩ := h
  refine ⟨p, h1, .inr ⟨rfl, ?_⟩⟩
  rcases h2 with rfl | ⟨-, h2⟩
  · exact hp
  · exact h2

variable {β : Type}

/-- what a step does to the phases and the events -/
inductive PhaseMove (ph : β → Phase α) (pcs : List β) (log : List (Nat × Ev α)) : List β → List (Nat × Ev α) → Prop where
  | silent {pcs' : List β} (h : ∀ u, phaseAt ph pcs' u = phaseAt ph pcs u) : PhaseMove ph pcs log pcs' log
  | event {pcs' : List β} (t : Nat) (e : Ev α) (h : ∀ u, u ≠ t → phaseAt ph pcs' u = phaseAt ph pcs u)
      (hs : PhaseStep (phaseAt ph pcs t) e (phaseAt ph pcs' t)) : PhaseMove ph pcs log pcs' (log ++ [(t, e)])

theorem phaseAt_set {ph : β → Phase α} {pcs : List β} {t : Nat} {p0 : β} (h0 : pcs[t]? = some p0) (p1 : β) (u : Nat) :
    phaseAt ph (pcs.set t p1) u = if u = t then ph p1 else phaseAt ph pcs u := by
  by_cases hu : u = t
  · subst hu
    rw [phaseAt_some (by rw [get_set h0, if_pos rfl] : (pcs.set u p1)[u]? = some p1), if_pos rfl]
  · simp only [phaseAt, get_set h0, if_neg hu]

theorem PhaseMove.quiet {ph : β → Phase α} {pcs : List β} {log : List (Nat × Ev α)} {t : Nat} {p0 p1 : β}
    (h0 : pcs[t]? = some p0) (hp : ph p1 = ph p0) : PhaseMove ph pcs log (pcs.set t p1) log :=
  .silent fun u => by
    rw [phaseAt_set h0]
    split
    · next e => subst e; rw [hp, phaseAt_some h0]
    · rfl

theorem PhaseMove.one {ph : β → Phase α} {pcs : List β} {log : List (Nat × Ev α)} {t : Nat} {p0 p1 : β}
    (h0 : pcs[t]? = some p0) {e : Ev α} (hs : PhaseStep (ph p0) e (ph p1)) :
    PhaseMove ph pcs log (pcs.set t p1) (log ++ [(t, e)]) :=
  .event t e (fun u hu => by rw [phaseAt_set h0, if_neg hu]) (by rw [phaseAt_set h0, if_pos rfl, phaseAt_some h0]; exact hs)

theorem PhaseMove.settled {ph : β → Phase α} {pcs pcs' : List β} {log log' : List (Nat × Ev α)}
    (h : PhaseMove ph pcs log pcs' log') (hI : ∀ u, Settled (ofThread u log) (phaseAt ph pcs u)) (u : Nat) :
    Settled (ofThread u log') (phaseAt ph pcs' u) := by
  cases h with
  | silent h => rw [h]; exact hI u
  | event t e h hs =>
    by_cases hu : u = t
    · subst hu
      rw [ofThread_snoc_self]
      exact (hI u).snoc hs
    · rw [ofThread_snoc_ne hu, h u hu]
      exact hI u

theorem settled_fail {ph : β → Phase α} {pcs : List β} {log : List (Nat × Ev α)} {t : Nat} {p0 p1 : β}
    (h0 : pcs[t]? = some p0) (hp : (ph p0).called = true) (hp1 : ph p1 = .outside)
    (hI : ∀ u, Settled (ofThread u log) (phaseAt ph pcs u)) (u : Nat) :
    Settled (ofThread u log) (phaseAt ph (pcs.set t p1) u) := by
  rw [phaseAt_set h0]
  split
  · next e =>
    subst e
    have := hI u
    rw [phaseAt_some h0] at this
    rw [hp1]
    exact this.drop hp
  · exact hI u

/-- A family of lawful queues: `L c` describes the queue after `c` leaks.  Where `room` holds, a push whose copy number
`b` throws keeps the contents and leaks `b` elements. -/
structure Family (Q : QImpl α) (cap : Option Nat) (F : PushFails Q) (room : Q.St → Prop) where
  L : Nat → Lawful Q cap
  fails : ∀ {c : Nat} {q q' : Q.St} {l : List α} {a : α} {b : Nat}, (L c).Rep q l → room q → F b a q = some q' →
    (L (c + b)).Rep q' l

/-- `std::queue` -/
def stdFamily (α : Type) : Family (stdQ α) none (stdFails α) (fun _ => True) where
  L := fun _ => stdLawful α
  fails := fun {c q q' l a b} h _ hf => by
    simp only [stdFails] at hf
    split at hf <;> simp only [Option.some.injEq, reduceCtorEq] at hf
    exact hf ▸ h

end Conc

/-! ### Vcq with leaked elements -/

namespace Cyclic.Vcq

open Spec

/-- the same queue with the leaked elements taken out: `m` agrees with `m'` wherever `m` holds an object -/
structure Covers (m m' : Mem α) (c : Nat) : Prop where
  len : m.cells.length = m'.cells.length
  cells : ∀ j : Nat, m.cells[j]? = some Cell.raw ∨ m.cells[j]? = m'.cells[j]?
  made : m'.led.made = m.led.made + c
  gone : m'.led.gone = m.led.gone

theorem Covers.set {m m' : Mem α} {c : Nat} (h : Covers m m' c) (i : Nat) (x : Cell α) (d e : Nat) :
    Covers ⟨m.cells.set i x, { m.led with made := m.led.made + d, gone := m.led.gone + e }⟩
      ⟨m'.cells.set i x, { m'.led with made := m'.led.made + d, gone := m'.led.gone + e }⟩ c where
  len := by simp [h.len]
  cells := fun j => by
    show (m.cells.set i x)[j]? = _ ∨ (m.cells.set i x)[j]? = (m'.cells.set i x)[j]?
    rw [List.getElem?_set, List.getElem?_set]
    by_cases hij : i = j
    · rw [if_pos hij, if_pos hij, h.len]; exact .inr rfl
    · rw [if_neg hij, if_neg hij]; exact h.cells j
  made := by show _ = _; simp only [h.made]; omega
  gone := by show _ = _; simp only [h.gone]

theorem Covers.live {m m' : Mem α} {c : Nat} (h : Covers m m' c) {i : Nat} {x : Cell α} (hx : m.cells[i]? = some x)
    (ha : x.alive = true) : m'.cells[i]? = some x := by
  rcases h.cells i with h1 | h1
  · rw [hx, Option.some.injEq] at h1; subst h1; simp [Cell.alive] at ha
  · rw [← h1, hx]

/-- an operation that does the same with and without leaked elements -/
def Keeps {β : Type} (f : Cpp (VcqS α) β) : Prop :=
  ∀ ⦃s s' t : VcqS α⦄ ⦃c : Nat⦄ ⦃b : β⦄, Covers s.mem s'.mem c → s' = { s with mem := s'.mem } → f s = .ok b t →
    ∃ t', f s' = .ok b t' ∧ Covers t.mem t'.mem c ∧ t' = { t with mem := t'.mem }

theorem Keeps.bind {β γ : Type} {f : Cpp (VcqS α) β} {g : β → Cpp (VcqS α) γ} (hf : Keeps f) (hg : ∀ b, Keeps (g b)) :
    Keeps (f >>= g) := by
  intro s s' t c b h e hr
  rw [Cpp.bind_run] at hr
  cases h1 : f s with
  | ok x u =>
    rw [h1] at hr
    obtain ⟨u', e1, e2, e3⟩ := hf h e h1
    obtain ⟨t', e4, e5, e6⟩ := hg x e2 e3 hr
    exact ⟨t', by rw [Cpp.bind_ok e1]; exact e4, e5, e6⟩
  | thrown u => rw [h1] at hr; simp at hr
  | ub w => rw [h1] at hr; simp at hr

theorem Keeps.pure {β : Type} (b : β) : Keeps (pure b : Cpp (VcqS α) β) := by
  intro s s' t c x h e hr
  rw [Cpp.pure_run] at hr
  injection hr with h1 h2
  subst h1 h2
  exact ⟨s', by rw [Cpp.pure_run], h, e⟩

theorem Keeps.modify (f : VcqS α → VcqS α) (hf : ∀ (s : VcqS α) (m : Mem α), f { s with mem := m } = { f s with mem := m })
    (hm : ∀ s : VcqS α, (f s).mem = s.mem) : Keeps (Cpp.modify f) := by
  intro s s' t c x h e hr
  simp only [Cpp.modify] at hr ⊢
  injection hr with h1 h2
  subst h2
  refine ⟨_, rfl, ?_, ?_⟩
  · rw [hm, hm]; exact h
  · rw [hm, e, hf]

theorem Keeps.construct (i : Nat) (a : α) : Keeps (onMem (Mem.construct i a)) := by
  intro s s' t c x h e hr
  by_cases hi : i < s.mem.cells.length
  · rw [onMem_ok (construct_run a hi)] at hr
    injection hr with h1 h2
    subst h2
    rw [onMem_ok (construct_run a (by rw [← h.len]; exact hi))]
    exact ⟨_, rfl, h.set i (.live a) 1 0, by rw [e]⟩
  · simp only [onMem, Mem.construct, if_neg hi, Out.mapState] at hr
    simp at hr

theorem Keeps.destroy (i : Nat) : Keeps (onMem (Mem.destroy (α := α) .managed i)) := by
  intro s s' t c x h e hr
  cases hc : s.mem.cells[i]? with
  | none => simp [onMem, Mem.destroy, hc, Out.mapState] at hr
  | some y =>
    by_cases ha : y.alive = true
    · rw [onMem_ok (destroy_run hc (fun _ => ha))] at hr
      injection hr with h1 h2
      subst h2
      rw [onMem_ok (destroy_run (h.live hc ha) (fun _ => ha))]
      exact ⟨_, rfl, h.set i .raw 0 1, by rw [e]⟩
    · simp [onMem, Mem.destroy, hc, ha, Out.mapState] at hr

theorem Keeps.moveOut (i : Nat) : Keeps (onMem (Mem.moveOut (α := α) .managed i)) := by
  intro s s' t c x h e hr
  cases hc : s.mem.cells[i]? with
  | none => simp [onMem, Mem.moveOut, hc, Out.mapState] at hr
  | some y =>
    cases y with
    | live a =>
      rw [onMem_ok (moveOut_run hc)] at hr
      injection hr with h1 h2
      subst h1 h2
      rw [onMem_ok (moveOut_run (h.live hc rfl))]
      exact ⟨_, rfl, h.set i .moved 0 0, by rw [e]⟩
    | _ => simp [onMem, Mem.moveOut, hc, Out.mapState] at hr

theorem Keeps.of_state {β : Type} {f : VcqS α → Cpp (VcqS α) β} (hf : ∀ s, Keeps (f s))
    (he : ∀ (s : VcqS α) (m : Mem α), f { s with mem := m } = f s) : Keeps (fun s => f s s) := by
  intro s s' t c b h e hr
  have : f s' = f s := by rw [e]; exact he s _
  simp only [this]
  exact hf s h e hr

theorem keeps_dropOldest : Keeps (dropOldest (α := α) .managed) := by
  refine Keeps.of_state (f := fun s => if s.size = s.n then do
      onMem (Mem.destroy .managed s.wr)
      onMem (Mem.destroy .managed (s.wr + s.n))
    else pure ()) (fun s => ?_) (fun s m => rfl)
  split
  · exact (Keeps.destroy _).bind fun _ => Keeps.destroy _
  · exact Keeps.pure _

theorem keeps_pushBack (a : α) : Keeps (pushBack .managed a) := by
  refine Keeps.of_state (f := fun s => do
    dropOldest .managed
    onMem (Mem.construct s.wr a)
    onMem (Mem.construct (s.wr + s.n) a)
    Cpp.modify pushed) (fun s => ?_) (fun s m => rfl)
  refine keeps_dropOldest.bind fun _ => (Keeps.construct _ _).bind fun _ => (Keeps.construct _ _).bind fun _ =>
    Keeps.modify _ ?_ pushed_mem
  intro s m
  unfold pushed
  split <;> rfl

theorem keeps_popFront : Keeps (popFront (α := α) .managed) := by
  refine Keeps.of_state (f := fun s => do
    let a ← onMem (Mem.moveOut .managed s.rd)
    onMem (Mem.destroy .managed s.rd)
    onMem (Mem.destroy .managed (s.rd + s.n))
    Cpp.modify (fun t => { t with
      size := if t.size = 0 then 2 ^ 64 - 1 else t.size - 1
      rd := advance t.n t.rd })
    pure a) (fun s => ?_) (fun s m => rfl)
  exact (Keeps.moveOut _).bind fun _ => (Keeps.destroy _).bind fun _ => (Keeps.destroy _).bind fun _ =>
    (Keeps.modify (fun t => { t with
      size := if t.size = 0 then 2 ^ 64 - 1 else t.size - 1
      rd := advance t.n t.rd }) (fun _ _ => rfl) (fun _ => rfl)).bind fun _ => Keeps.pure _

/-- the queue holds `l`, and `c` further elements were made that nobody will destroy -/
def Leaky (s : VcqS α) (l : List α) (c : Nat) : Prop :=
  ∃ m, Rep .managed { s with mem := m } l ∧ Covers m s.mem c

theorem Leaky.push {s : VcqS α} {l : List α} {c : Nat} (h : Leaky s l c) (a : α) :
    ∃ s', pushBack .managed a s = .ok () s' ∧ s'.n = s.n ∧ Leaky s' (fifoPush s.n l a) c := by
  obtain ⟨m, h1, h2⟩ := h
  obtain ⟨t, h3, h4, h5, -⟩ := pushBack_run h1 a
  obtain ⟨t', e1, e2, e3⟩ := keeps_pushBack a (s := { s with mem := m }) (s' := s) h2 rfl h3
  refine ⟨t', e1, by rw [e3]; exact h4, t.mem, ?_, e2⟩
  rw [e3]
  exact h5

theorem Leaky.pop {s : VcqS α} {v : α} {l : List α} {c : Nat} (h : Leaky s (v :: l) c) :
    ∃ s', popFront .managed s = .ok v s' ∧ s'.n = s.n ∧ Leaky s' l c := by
  obtain ⟨m, h1, h2⟩ := h
  obtain ⟨t, h3, h4, h5, -⟩ := popFront_run h1
  obtain ⟨t', e1, e2, e3⟩ := keeps_popFront (s := { s with mem := m }) (s' := s) h2 rfl h3
  refine ⟨t', e1, by rw [e3]; exact h4, t.mem, ?_, e2⟩
  rw [e3]
  exact h5

theorem Leaky.size {s : VcqS α} {l : List α} {c : Nat} (h : Leaky s l c) : s.size = l.length := by
  obtain ⟨m, h1, -⟩ := h
  exact h1.size

theorem Leaky.led {s : VcqS α} {l : List α} {c : Nat} (h : Leaky s l c) :
    s.mem.led.made = s.mem.led.gone + 2 * l.length + c := by
  obtain ⟨m, h1, h2⟩ := h
  have := h1.led
  have e1 := h2.made
  have e2 := h2.gone
  simp only at this
  omega

theorem Leaky.contents {s : VcqS α} {l : List α} {c : Nat} (h : Leaky s l c) : contents s = .ok l s := by
  have hs := h.size
  obtain ⟨m, h1, h2⟩ := h
  unfold Vcq.contents
  rw [hs]
  exact readSlots_run l s.rd fun i a ha => h2.live (h1.window i a ha) rfl

theorem Leaky.dtor {s : VcqS α} {l : List α} {c : Nat} (h : Leaky s l c) :
    ∃ t, dtor .managed s = .ok () t ∧ t.mem.led.made = t.mem.led.gone + c := by
  have hs := h.size
  have hl := h.led
  obtain ⟨m, h1, h2⟩ := h
  obtain ⟨t, e1, e2, e3⟩ := Thr.Cyc.vcq_dtor_run (s := s) h1.rd (by rw [← h2.len]; exact h1.cells) hs h1.le
    (fun i a ha => h2.live (h1.lo i a ha) rfl) (fun i a ha => h2.live (h1.hi i a ha) rfl)
  exact ⟨t, e1, by omega⟩

/-- a push onto a queue with room whose copy number `b` throws -/
theorem Leaky.fails {s s' : VcqS α} {l : List α} {c b x : Nat} {a : α} (h : Leaky s l c) (hr : s.size < s.n)
    (hf : Thr.Cyc.vcqPush .managed a (s, b) = .thrown (s', x)) : s'.n = s.n ∧ Leaky s' l (c + b) := by
  have hs := h.size
  obtain ⟨m, h1, h2⟩ := h
  have hd : dropOldest .managed s = .ok () s := by unfold dropOldest; rw [if_neg (by omega)]; rfl
  have hw : s.wr < s.n := h1.wr_lt
  have hlen : s.mem.cells.length = 2 * s.n := by rw [← h2.len]; exact h1.cells
  unfold Thr.Cyc.vcqPush at hf
  match b with
  | 0 =>
    rw [Cpp.bind_ok (Thr.lift_ok hd 0), Cpp.bind_thrown (show Thr.tickE .managed (s, 0) = .thrown (s, 0) from rfl)] at hf
    injection hf with hf
    injection hf with h3 h4
    subst h3
    exact ⟨rfl, m, h1, h2⟩
  | 1 =>
    have hc := onMem_ok (s := s) (construct_run (i := s.wr) (m := s.mem) a (by omega))
    rw [Cpp.bind_ok (Thr.lift_ok hd 1), Cpp.bind_ok (show Thr.tickE .managed (s, 1) = .ok () (s, 0) from rfl),
      Cpp.bind_ok (Thr.lift_ok hc 0), Cpp.bind_thrown (show Thr.tickE .managed (_, 0) = .thrown (_, 0) from rfl)] at hf
    injection hf with hf
    injection hf with h3 h4
    subst h3
    refine ⟨rfl, m, h1, ?_, fun j => ?_, ?_, h2.gone⟩
    · show _ = (s.mem.cells.set s.wr _).length
      rw [List.length_set]; exact h2.len
    · show _ ∨ _ = (s.mem.cells.set s.wr (.live a))[j]?
      rw [List.getElem?_set]
      by_cases hj : s.wr = j
      · subst hj
        left
        refine (h1.free rfl s.wr hw fun i hi => ?_).1
        have e := h1.wr
        have hrd : s.rd < s.n := h1.rd
        simp only at e ⊢
        rw [e, hs]
        unfold wrap
        repeat' split
        all_goals omega
      · rw [if_neg hj]; exact h2.cells j
    · show s.mem.led.made + 1 = _
      rw [h2.made]; omega
  | b + 2 =>
    have hc := onMem_ok (s := s) (construct_run (i := s.wr) (m := s.mem) a (by omega))
    have hc2 := onMem_ok (s := { s with mem := ⟨s.mem.cells.set s.wr (.live a), { s.mem.led with made := s.mem.led.made + 1 }⟩ })
      (construct_run (i := s.wr + s.n) a (by simp; omega))
    rw [Cpp.bind_ok (Thr.lift_ok hd _), Cpp.bind_ok (show Thr.tickE .managed (s, b + 2) = .ok () (s, b + 1) from rfl),
      Cpp.bind_ok (Thr.lift_ok hc _), Cpp.bind_ok (show Thr.tickE .managed (_, b + 1) = .ok () (_, b) from rfl),
      Cpp.bind_ok (Thr.lift_ok hc2 _)] at hf
    simp [Thr.lift, Out.mapState] at hf

/-- A push onto a full queue whose copy throws destroys the oldest element first: the next `pop_front` and the destructor
are undefined. -/
theorem Leaky.full_fails {s : VcqS α} {l : List α} {c : Nat} (h : Leaky s l c) (hf : s.size = s.n) (a : α) {b : Nat}
    (hb : b < 2) : ∃ t, Thr.Cyc.vcqPush .managed a (s, b) = .thrown (t, 0) ∧ t.size = s.size ∧ t.n = s.n ∧
      (∃ w, popFront .managed t = .ub w) ∧ Vcq.dtor .managed t = .ub .deadDestroy := by
  have hsz := h.size
  obtain ⟨m, h1, h2⟩ := h
  have hpos : 0 < s.n := h1.pos
  have hrd : s.rd < s.n := h1.rd
  have hcl : s.mem.cells.length = 2 * s.n := by rw [← h2.len]; exact h1.cells
  have hw : s.wr = s.rd := by
    have e : s.wr = wrap s.n s.rd s.size := h1.wr
    rw [e, hf]; unfold wrap; rw [if_neg (by omega)]; omega
  obtain ⟨x, hx⟩ : ∃ x, l[0]? = some x := ⟨l[0]'(by omega), by simp⟩
  have hw0 : wrap s.n s.rd 0 = s.rd := by unfold wrap; rw [if_pos (by omega)]; rfl
  have c1 := h2.live (h1.lo 0 x hx) rfl
  have c2 := h2.live (h1.hi 0 x hx) rfl
  simp only [hw0] at c1 c2
  have hd : dropOldest .managed s = .ok () { s with mem := ⟨(s.mem.cells.set s.rd .raw).set (s.n + s.rd) .raw,
      { s.mem.led with gone := s.mem.led.gone + 2 }⟩ } := by
    unfold dropOldest
    rw [if_pos hf, ← bind_unit (onMem (Mem.destroy .managed (s.wr + s.n))), hw,
      destroy2 _ (Nat.add_comm _ _) hrd c1 c2 rfl rfl, ← hw]
    rfl
  have hdt : ∀ t : VcqS α, t.n = s.n → t.rd = s.rd → t.size = s.size → t.mem.cells.length = 2 * s.n →
      t.mem.cells[s.n + s.rd]? = some .raw → (∃ w, popFront .managed t = .ub w) ∧ Vcq.dtor .managed t = .ub .deadDestroy := by
    intro t tn tr ts tl tc
    obtain ⟨c, hc⟩ : ∃ c, t.mem.cells[s.rd]? = some c := by
      have : s.rd < t.mem.cells.length := by omega
      exact ⟨t.mem.cells[s.rd], by simp [this]⟩
    constructor
    · unfold popFront
      rw [tr]
      cases c with
      | live y =>
        rw [Cpp.bind_ok (onMem_ok (moveOut_run hc))]
        rw [Cpp.bind_ok (onMem_ok (destroy_run (c := .moved) (by
          show (t.mem.cells.set s.rd _)[s.rd]? = _
          rw [List.getElem?_set, if_pos rfl, if_pos (by omega)]; rfl) (fun _ => rfl)))]
        refine ⟨.deadDestroy, Cpp.bind_ub ?_⟩
        unfold onMem Mem.destroy
        simp only [List.getElem?_set, tn, tr]
        rw [if_neg (by omega), if_neg (by omega), Nat.add_comm s.rd, tc]
        rfl
      | raw => exact ⟨.deadRead, Cpp.bind_ub (by simp [onMem, Mem.moveOut, hc, Out.mapState])⟩
      | moved => exact ⟨.movedRead, Cpp.bind_ub (by simp [onMem, Mem.moveOut, hc, Out.mapState])⟩
    · unfold Vcq.dtor
      rw [ts, hf, tn, tr]
      obtain ⟨m, hm⟩ : ∃ m, s.n = m + 1 := ⟨s.n - 1, by omega⟩
      rw [show forUp (destroyBody (α := α) .managed s.n s.rd) 0 s.n = forUp (destroyBody .managed s.n s.rd) 0 (m + 1) by
        rw [← hm], forUp_succ]
      refine Cpp.bind_ub ?_
      unfold destroyBody
      rw [hw0, Cpp.bind_run]
      cases hal : c.alive with
      | true =>
        rw [onMem_ok (destroy_run (k := .managed) hc (fun _ => hal))]
        simp only
        unfold onMem Mem.destroy
        simp only [List.getElem?_set]
        rw [if_neg (by omega), tc]
        rfl
      | false =>
        have : onMem (Mem.destroy .managed s.rd) t = .ub .deadDestroy := by
          unfold onMem Mem.destroy
          rw [hc]; simp [hal, Out.mapState]
        rw [this]
  have hb' : b = 0 ∨ b = 1 := by omega
  rcases hb' with rfl | rfl
  · have e : Thr.Cyc.vcqPush .managed a (s, 0) = .thrown ({ s with
        mem := ⟨(s.mem.cells.set s.rd .raw).set (s.n + s.rd) .raw, { s.mem.led with gone := s.mem.led.gone + 2 }⟩ }, 0) := by
      unfold Thr.Cyc.vcqPush
      rw [Cpp.bind_ok (Thr.lift_ok hd 0)]
      rfl
    refine ⟨_, e, rfl, rfl, hdt _ rfl rfl rfl (by simp [hcl]) ?_⟩
    simp only [List.getElem?_set, List.length_set]
    rw [if_pos trivial, if_pos (by omega)]
  · have hc := onMem_ok (s := { s with mem := ⟨(s.mem.cells.set s.rd .raw).set (s.n + s.rd) .raw,
      { s.mem.led with gone := s.mem.led.gone + 2 }⟩ }) (construct_run (i := s.wr) a (by simp; omega))
    have e : Thr.Cyc.vcqPush .managed a (s, 1) = .thrown ({ s with
        mem := ⟨((s.mem.cells.set s.rd .raw).set (s.n + s.rd) .raw).set s.wr (.live a),
          { s.mem.led with gone := s.mem.led.gone + 2, made := s.mem.led.made + 1 }⟩ }, 0) := by
      unfold Thr.Cyc.vcqPush
      rw [Cpp.bind_ok (Thr.lift_ok hd 1), Cpp.bind_ok (show Thr.tickE .managed (_, 1) = .ok () (_, 0) from rfl),
        Cpp.bind_ok (Thr.lift_ok hc 0)]
      rfl
    refine ⟨_, e, rfl, rfl, hdt _ rfl rfl rfl (by simp [hcl]) ?_⟩
    simp only [List.getElem?_set, List.length_set]
    rw [if_neg (by omega), if_pos trivial, if_pos (by omega)]

end Cyclic.Vcq

namespace Conc

open Spec Cyclic

/-- `Vcq` of resource-owning elements -/
def vcqFamily (n : Nat) (hn : 0 < n) (α : Type) :
    Family (vcqQ .managed n α) (some n) (vcqFails .managed n α) (fun q => VcqS.size q < n) where
  L := fun c => {
    Rep := fun q l => (∃ c', c' ≤ c ∧ Vcq.Leaky q l c') ∧ q.n = n
    init := ⟨⟨0, Nat.zero_le _, _, Vcq.mk0_rep .managed n hn, rfl, fun _ => .inr rfl, rfl, rfl⟩, rfl⟩
    empty := fun {q l} h => by
      obtain ⟨⟨c', -, h⟩, -⟩ := h
      have := h.size
      show decide (q.size = 0) = _
      rw [this]
      cases l <;> simp
    push := fun {q l} a h => by
      obtain ⟨⟨c', hc, h⟩, hq⟩ := h
      obtain ⟨q', h1, h2, h3⟩ := h.push a
      rw [hq] at h3
      exact ⟨q', h1, ⟨c', hc, h3⟩, h2.trans hq⟩
    pop := fun {q v l} h => by
      obtain ⟨⟨c', hc, h⟩, hq⟩ := h
      obtain ⟨q', h1, h2, h3⟩ := h.pop
      exact ⟨q', h1, ⟨c', hc, h3⟩, h2.trans hq⟩ }
  fails := fun {c q q' l a b} h hr hf => by
    obtain ⟨⟨c', hc, h⟩, hq⟩ := h
    unfold vcqFails at hf
    split at hf
    case h_2 => cases hf
    rename_i r hf'
    cases hf
    obtain ⟨h1, h2⟩ := h.fails (by rw [hq]; exact hr) hf'
    exact ⟨⟨c' + b, by omega, h2⟩, h1.trans hq⟩

namespace Blocking

variable {Q : QImpl α} {cap : Option Nat} {F : PushFails Q} {room : Q.St → Prop}

theorem step_phase {s s' : State Q} {a : Act α} (h : step s a = some s') :
    PhaseMove PC.phase s.pcs s.log s'.pcs s'.log := by
  cases a with
  | callEnq t a =>
    simp only [step] at h
    split at h <;> simp only [Option.some.injEq, reduceCtorEq] at h
    subst h
    rename_i h0
    exact .one (ph := PC.phase) h0 (p1 := .enqLock a) (PhaseStep.callEnq a)
  | callDeq t =>
    simp only [step] at h
    split at h <;> simp only [Option.some.injEq, reduceCtorEq] at h
    subst h
    rename_i h0
    exact .one (ph := PC.phase) h0 (p1 := .deqLock) PhaseStep.callDeq
  | spurious t =>
    simp only [step] at h
    split at h <;> simp only [Option.some.injEq, reduceCtorEq] at h
    subst h
    rename_i h0
    exact .quiet (ph := PC.phase) h0 (p1 := .woken) rfl
  | notify t x =>
    simp only [step] at h
    split at h
    · rename_i h0
      split at h
      · rename_i x
        split at h <;> simp only [Option.some.injEq, reduceCtorEq] at h
        subst h
        rename_i hx
        have hne : t ≠ x := by
          rintro rfl
          rw [h0] at hx
          simp at hx
        have h0' : (s.pcs.set x .woken)[t]? = some .enqNotify := by rw [get_set hx, if_neg hne, h0]
        refine .silent fun u => ?_
        show phaseAt PC.phase ((s.pcs.set x .woken).set t .enqUnlock) u = _
        rw [phaseAt_set h0', phaseAt_set hx]
        by_cases h1 : u = t
        · subst h1; rw [if_pos rfl, phaseAt_some h0]; rfl
        · rw [if_neg h1]
          by_cases h2 : u = x
          · subst h2; rw [if_pos rfl, phaseAt_some hx]; rfl
          · rw [if_neg h2]
      · split at h <;> simp only [Option.some.injEq, reduceCtorEq] at h
        subst h
        exact .quiet (ph := PC.phase) h0 (p1 := .enqUnlock) rfl
    · simp at h
  | run t =>
    simp only [step] at h
    split at h
    · rename_i p0 h0
      cases p0 with
      | idle => simp [runPC] at h
      | enqNotify => simp [runPC] at h
      | asleep => simp [runPC] at h
      | enqLock a =>
        simp only [runPC] at h
        split at h <;> simp only [Option.some.injEq, reduceCtorEq] at h
        subst h; exact .quiet (ph := PC.phase) h0 (p1 := .enqPush a) rfl
      | deqLock =>
        simp only [runPC] at h
        split at h <;> simp only [Option.some.injEq, reduceCtorEq] at h
        subst h; exact .quiet (ph := PC.phase) h0 (p1 := .deqCheck) rfl
      | woken =>
        simp only [runPC] at h
        split at h <;> simp only [Option.some.injEq, reduceCtorEq] at h
        subst h; exact .quiet (ph := PC.phase) h0 (p1 := .deqCheck) rfl
      | enqPush a =>
        simp only [runPC] at h
        split at h <;> simp only [Option.some.injEq] at h <;> subst h
        · exact .one (ph := PC.phase) h0 (p1 := .enqNotify) (PhaseStep.push a)
        · exact .silent fun _ => rfl
      | enqUnlock =>
        simp only [runPC, Option.some.injEq] at h
        subst h; exact .one (ph := PC.phase) h0 (p1 := .idle) PhaseStep.retEnq
      | deqCheck =>
        simp only [runPC] at h
        split at h <;> simp only [Option.some.injEq] at h <;> subst h
        · exact .quiet (ph := PC.phase) h0 (p1 := .asleep) rfl
        · exact .quiet (ph := PC.phase) h0 (p1 := .deqPop) rfl
      | deqPop =>
        simp only [runPC] at h
        split at h <;> simp only [Option.some.injEq] at h <;> subst h
        · rename_i v q _; exact .one (ph := PC.phase) h0 (p1 := .deqUnlock v) (PhaseStep.pop (some v))
        · exact .silent fun _ => rfl
      | deqUnlock v =>
        simp only [runPC, Option.some.injEq] at h
        subst h; exact .one (ph := PC.phase) h0 (p1 := .idle) (PhaseStep.retDeq (some v))
    · simp at h

/-- is it an exception of `dequeue`? -/
def ActV.popThrows : ActV α → Bool
  | .throwPop _ => true
  | _ => false

/-- the elements an action leaks -/
def ActV.leaks : ActV α → Nat
  | .throwPush _ b => b
  | _ => 0

/-- the invariant; `c`: elements leaked so far, at most; `w`: no dequeue has thrown -/
structure InvV (M : Family Q cap F room) (c : Nat) (w : Bool) (s : State Q) (l : List α) : Prop where
  inv : InvT (M.L c) w s l
  phase : ∀ u, Settled (ofThread u s.log) (phaseAt PC.phase s.pcs u)

theorem startV_inv (M : Family Q cap F room) (m : Nat) : InvV M 0 true (start Q m) [] where
  inv := startT_inv (M.L 0) m
  phase := fun u => ⟨_, by
    show PhaseRun (settled (ofThread u [])) _
    exact PhaseRun.nil, .inl (by
      show _ = phaseAt PC.phase (start Q m).pcs u
      simp only [phaseAt, start, List.getElem?_replicate]
      split
      · rename_i h; split at h
        · cases h; rfl
        · simp at h
      · rfl)⟩

theorem stepV_inv {M : Family Q cap F room} {c : Nat} {w : Bool} {s s' : State Q} {l : List α} (hI : InvV M c w s l)
    {a : ActV α} (h : stepV F s a = some s') (hr : ∀ t b, a = .throwPush t b → room s.q) :
    ∃ l', InvV M (c + a.leaks) (w && !a.popThrows) s' l' := by
  cases a with
  | act a =>
    have h : step s a = some s' := h
    obtain ⟨l', h'⟩ := actT_inv hI.inv h
    exact ⟨l', by simpa [ActV.popThrows, ActV.leaks] using h', (step_phase h).settled hI.phase⟩
  | throwPush t b =>
    simp only [stepV] at h
    split at h
    · rename_i a h0
      split at h <;> simp only [Option.some.injEq, reduceCtorEq] at h
      rename_i q hq
      subst h
      have hrep := M.fails hI.inv.rep (hr t b rfl) hq
      have h2 : InvT (M.L (c + b)) w { s with q := q } l :=
        ⟨⟨hI.inv.lock, hI.inv.owner, hI.inv.good, hrep, hI.inv.legal, hI.inv.nonempty⟩, hI.inv.wake⟩
      exact ⟨l, h2.next h0 (p1 := .idle) (.inr (.inr ⟨rfl, rfl, rfl⟩)) hrep hI.inv.legal (by simp) (.inl rfl)
        (fun h => (Bool.and_eq_true_iff.mp h).1) (fun _ => .inr ⟨by simp, by simp [PC.pending]⟩),
        settled_fail h0 rfl rfl hI.phase⟩
    · simp at h
  | throwPop t =>
    simp only [stepV] at h
    split at h <;> simp only [Option.some.injEq, reduceCtorEq] at h
    subst h
    rename_i h0
    exact ⟨l, hI.inv.next h0 (p1 := .idle) (.inr (.inr ⟨rfl, rfl, rfl⟩)) hI.inv.rep hI.inv.legal (by simp) (.inl rfl)
      (fun h => (Bool.and_eq_true_iff.mp h).1) (fun h => by simp [ActV.popThrows] at h),
      settled_fail h0 rfl rfl hI.phase⟩

/-- copies throw only where `room` holds -/
def Safe (F : PushFails Q) (room : Q.St → Prop) (as : List (ActV α)) (s : State Q) : Prop :=
  ∀ as1 t b as2 s1, as = as1 ++ .throwPush t b :: as2 → execV F as1 s = some s1 → room s1.q

theorem execV_inv {M : Family Q cap F room} : ∀ (as : List (ActV α)) {c : Nat} {w : Bool} {s s' : State Q} {l : List α},
    InvV M c w s l → Safe F room as s → execV F as s = some s' →
    ∃ l', InvV M (c + (as.map ActV.leaks).sum) (w && as.all (fun a => !a.popThrows)) s' l'
  | [], c, w, s, s', l, hI, _, h => by
    simp only [execV, Option.some.injEq] at h; subst h; exact ⟨l, by simpa using hI⟩
  | a :: as, c, w, s, s', l, hI, hs, h => by
    simp only [execV] at h
    split at h
    · rename_i s1 h1
      obtain ⟨l1, hI1⟩ := stepV_inv hI h1 (fun t b e => hs [] t b as s (by rw [e]; rfl) rfl)
      obtain ⟨l2, hI2⟩ := execV_inv as hI1 (fun as1 t b as2 s2 e1 e2 => hs (a :: as1) t b as2 s2 (by rw [e1]; rfl)
        (by simp only [execV, h1]; exact e2)) h
      exact ⟨l2, by simpa [Bool.and_assoc, Nat.add_assoc] using hI2⟩
    · simp at h

theorem stepV_length {s s' : State Q} {a : ActV α} (h : stepV F s a = some s') : s'.pcs.length = s.pcs.length := by
  cases a with
  | act a => exact step_length h
  | throwPush t b =>
    simp only [stepV] at h
    split at h
    · split at h <;> simp only [Option.some.injEq, reduceCtorEq] at h
      subst h; simp [State.goto]
    · simp at h
  | throwPop t =>
    simp only [stepV] at h
    split at h <;> simp only [Option.some.injEq, reduceCtorEq] at h
    subst h; simp [State.goto]

theorem execV_length : ∀ {as : List (ActV α)} {s s' : State Q}, execV F as s = some s' → s'.pcs.length = s.pcs.length
  | [], s, s', h => by simp only [execV, Option.some.injEq] at h; rw [h]
  | a :: as, s, s', h => by
    simp only [execV] at h
    split at h
    · rename_i h1; exact (execV_length h).trans (stepV_length h1)
    · simp at h

/-- steps of operations under way, with or without an exception -/
def ActV.inner : ActV α → Bool
  | .act a => a.inner
  | _ => true

theorem execV_fuel {M : Family Q cap F room} : ∀ {as : List (ActV α)} {c : Nat} {w : Bool} {s s' : State Q} {l : List α},
    InvV M c w s l → Safe F room as s → (∀ a ∈ as, a.inner = true) → execV F as s = some s' →
    as.length + weight PC.fuel s'.pcs ≤ weight PC.fuel s.pcs
  | [], c, w, s, s', l, _, _, _, h => by simp only [execV, Option.some.injEq] at h; simp [h]
  | a :: as, c, w, s, s', l, hI, hs, ha, h => by
    simp only [execV] at h
    split at h
    · rename_i s1 h1
      obtain ⟨l1, hI1⟩ := stepV_inv hI h1 (fun t b e => hs [] t b as s (by rw [e]; rfl) rfl)
      have e2 := execV_fuel hI1 (fun as1 t b as2 s2 e1 e2 => hs (a :: as1) t b as2 s2 (by rw [e1]; rfl)
        (by simp only [execV, h1]; exact e2)) (fun b hb => ha b (by simp [hb])) h
      have key : ∀ {t : Nat} {p0 : PC α}, s.pcs[t]? = some p0 → 0 < p0.fuel →
          weight PC.fuel (s.pcs.set t .idle) + 1 ≤ weight PC.fuel s.pcs := by
        intro t p0 h0 hp
        have := weight_set PC.fuel h0 .idle
        have e : (PC.idle : PC α).fuel = 0 := rfl
        omega
      have e1 : weight PC.fuel s1.pcs + 1 ≤ weight PC.fuel s.pcs := by
        cases a with
        | act a => exact fuel_step hI.inv.toCore ((inner_iff a).mp (show a.inner = true from ha (.act a) (by simp))) h1
        | throwPush t b =>
          simp only [stepV] at h1
          split at h1
          · rename_i h0
            split at h1 <;> simp only [Option.some.injEq, reduceCtorEq] at h1
            subst h1; exact key h0 (by simp [PC.fuel])
          · simp at h1
        | throwPop t =>
          simp only [stepV] at h1
          split at h1 <;> simp only [Option.some.injEq, reduceCtorEq] at h1
          rename_i h0
          subst h1; exact key h0 (by simp [PC.fuel])
      simp only [List.length_cons]
      omega
    · simp at h

end Blocking

namespace NonBlocking

variable {Q : QImpl α} {cap : Option Nat} {F : PushFails Q} {room : Q.St → Prop}

theorem step_phase {s s' : State Q} {a : Act α} (h : step s a = some s') :
    PhaseMove PC.phase s.pcs s.log s'.pcs s'.log := by
  cases a with
  | callEnq t a =>
    simp only [step] at h
    split at h <;> simp only [Option.some.injEq, reduceCtorEq] at h
    subst h
    rename_i h0
    exact .one (ph := PC.phase) h0 (p1 := .enqLock a) (PhaseStep.callEnq a)
  | callDeq t =>
    simp only [step] at h
    split at h <;> simp only [Option.some.injEq, reduceCtorEq] at h
    subst h
    rename_i h0
    exact .one (ph := PC.phase) h0 (p1 := .deqLock) PhaseStep.callDeq
  | callEmpty t =>
    simp only [step] at h
    split at h <;> simp only [Option.some.injEq, reduceCtorEq] at h
    subst h
    rename_i h0
    exact .one (ph := PC.phase) h0 (p1 := .emptyRead) PhaseStep.callLook
  | run t =>
    simp only [step] at h
    split at h
    · rename_i p0 h0
      cases p0 with
      | idle => simp [runPC] at h
      | enqLock a =>
        simp only [runPC] at h
        split at h <;> simp only [Option.some.injEq, reduceCtorEq] at h
        subst h; exact .quiet (ph := PC.phase) h0 (p1 := .enqPush a) rfl
      | deqLock =>
        simp only [runPC] at h
        split at h <;> simp only [Option.some.injEq, reduceCtorEq] at h
        subst h; exact .quiet (ph := PC.phase) h0 (p1 := .deqCheck) rfl
      | enqPush a =>
        simp only [runPC] at h
        split at h <;> simp only [Option.some.injEq] at h <;> subst h
        · exact .one (ph := PC.phase) h0 (p1 := .enqUnlock) (PhaseStep.push a)
        · exact .silent fun _ => rfl
      | enqUnlock =>
        simp only [runPC, Option.some.injEq] at h
        subst h; exact .one (ph := PC.phase) h0 (p1 := .idle) PhaseStep.retEnq
      | deqCheck =>
        simp only [runPC] at h
        split at h <;> simp only [Option.some.injEq] at h <;> subst h
        · exact .one (ph := PC.phase) h0 (p1 := .deqUnlock none) (PhaseStep.pop none)
        · exact .quiet (ph := PC.phase) h0 (p1 := .deqPop) rfl
      | deqPop =>
        simp only [runPC] at h
        split at h <;> simp only [Option.some.injEq] at h <;> subst h
        · rename_i v q _; exact .one (ph := PC.phase) h0 (p1 := .deqUnlock (some v)) (PhaseStep.pop (some v))
        · exact .silent fun _ => rfl
      | deqUnlock v =>
        simp only [runPC, Option.some.injEq] at h
        subst h; exact .one (ph := PC.phase) h0 (p1 := .idle) (PhaseStep.retDeq v)
      | emptyRead =>
        simp only [runPC, Option.some.injEq] at h
        subst h; exact .one (ph := PC.phase) h0 (p1 := .emptyRet _) (PhaseStep.look _)
      | emptyRet b =>
        simp only [runPC, Option.some.injEq] at h
        subst h; exact .one (ph := PC.phase) h0 (p1 := .idle) (PhaseStep.retLook b)
    · simp at h

theorem Core.unique {L : Lawful Q cap} {s : State Q} {l : List α} (hI : Core L s l) {t u : Nat} {p p' : PC α}
    (h1 : s.pcs[t]? = some p) (h2 : s.pcs[u]? = some p') (hp : p.holds = true) (hp' : p'.holds = true) : t = u := by
  have a := (hI.lock _ _ h1).mp hp
  have b := (hI.lock _ _ h2).mp hp'
  rw [a] at b
  exact Option.some.inj b

theorem Core.next {L : Lawful Q cap} {s : State Q} {l l' : List α} (hI : Core L s l) {t : Nat} {p0 p1 : PC α}
    (h0 : s.pcs[t]? = some p0) {k : Option Nat} {q' : Q.St} {log' : List (Nat × Ev α)}
    (hk : (k = s.lock ∧ p1.holds = p0.holds) ∨ (s.lock = none ∧ k = some t ∧ p1.holds = true) ∨
      (p0.holds = true ∧ k = none ∧ p1.holds = false))
    (hrep : L.Rep q' l') (hlegal : Legal cap (events log') [] l')
    (hpop : p1 = .deqPop → l' ≠ []) (hkeep : l' = l ∨ p0.holds = true) :
    Core L ⟨s.pcs.set t p1, k, q', s.bad, log'⟩ l' where
  lock := lock_set hI.lock h0 hk
  owner := owner_set hI.owner h0 (by
    rcases hk with ⟨h, _⟩ | ⟨_, h, _⟩ | ⟨_, h, _⟩ <;> simp [h])
  good := hI.good
  rep := hrep
  legal := hlegal
  nonempty := fun u h => by
    by_cases hp : p1 = .deqPop
    · exact hpop hp
    · obtain ⟨hu, h⟩ := pc_set_other h0 hp h
      rcases hkeep with rfl | hh
      · exact hI.nonempty u h
      · exact absurd (hI.unique h h0 rfl hh) hu

theorem step_core {L : Lawful Q cap} {s s' : State Q} {l : List α} (hI : Core L s l) {a : Act α}
    (h : step s a = some s') : ∃ l', Core L s' l' := by
  cases a with
  | callEnq t a =>
    simp only [step] at h
    split at h <;> simp only [Option.some.injEq, reduceCtorEq] at h
    subst h
    rename_i h0
    exact ⟨l, hI.next h0 (p1 := .enqLock a) (.inl ⟨rfl, rfl⟩) hI.rep (legal_snoc hI.legal rfl) (by simp) (.inl rfl)⟩
  | callDeq t =>
    simp only [step] at h
    split at h <;> simp only [Option.some.injEq, reduceCtorEq] at h
    subst h
    rename_i h0
    exact ⟨l, hI.next h0 (p1 := .deqLock) (.inl ⟨rfl, rfl⟩) hI.rep (legal_snoc hI.legal rfl) (by simp) (.inl rfl)⟩
  | callEmpty t =>
    simp only [step] at h
    split at h <;> simp only [Option.some.injEq, reduceCtorEq] at h
    subst h
    rename_i h0
    exact ⟨l, hI.next h0 (p1 := .emptyRead) (.inl ⟨rfl, rfl⟩) hI.rep (legal_snoc hI.legal rfl) (by simp) (.inl rfl)⟩
  | run t =>
    simp only [step] at h
    split at h
    · rename_i p0 h0
      cases p0 with
      | idle => simp [runPC] at h
      | enqLock a =>
        simp only [runPC] at h
        split at h <;> simp only [Option.some.injEq, reduceCtorEq] at h
        subst h
        rename_i hl
        exact ⟨l, hI.next h0 (p1 := .enqPush a) (.inr (.inl ⟨hl, rfl, rfl⟩)) hI.rep hI.legal (by simp) (.inl rfl)⟩
      | deqLock =>
        simp only [runPC] at h
        split at h <;> simp only [Option.some.injEq, reduceCtorEq] at h
        subst h
        rename_i hl
        exact ⟨l, hI.next h0 (p1 := .deqCheck) (.inr (.inl ⟨hl, rfl, rfl⟩)) hI.rep hI.legal (by simp) (.inl rfl)⟩
      | enqPush a =>
        obtain ⟨q', hq, hr⟩ := L.push a hI.rep
        simp only [runPC, hq, Option.some.injEq] at h
        subst h
        exact ⟨capPush cap l a, hI.next h0 (p1 := .enqUnlock) (.inl ⟨rfl, rfl⟩) hr (legal_snoc hI.legal rfl)
          (by simp) (.inr rfl)⟩
      | enqUnlock =>
        simp only [runPC, Option.some.injEq] at h
        subst h
        exact ⟨l, hI.next h0 (p1 := .idle) (.inr (.inr ⟨rfl, rfl, rfl⟩)) hI.rep (legal_snoc hI.legal rfl) (by simp)
          (.inl rfl)⟩
      | deqCheck =>
        have he := L.empty hI.rep
        simp only [runPC] at h
        split at h <;> simp only [Option.some.injEq] at h <;> subst h
        · rename_i hq
          rw [hq] at he
          have hl : l = [] := by simpa using he.symm
          exact ⟨l, hI.next h0 (p1 := .deqUnlock none) (.inl ⟨rfl, rfl⟩) hI.rep (legal_snoc hI.legal ⟨hl, rfl⟩)
            (by simp) (.inl rfl)⟩
        · rename_i hq
          have hl : l ≠ [] := by
            intro hl
            rw [he, hl] at hq
            exact hq rfl
          exact ⟨l, hI.next h0 (p1 := .deqPop) (.inl ⟨rfl, rfl⟩) hI.rep hI.legal (fun _ => hl) (.inl rfl)⟩
      | deqPop =>
        have hl := hI.nonempty t h0
        obtain ⟨v, r, rfl⟩ := List.exists_cons_of_ne_nil hl
        obtain ⟨q', hq, hr⟩ := L.pop hI.rep
        simp only [runPC, hq, Option.some.injEq] at h
        subst h
        exact ⟨r, hI.next h0 (p1 := .deqUnlock (some v)) (.inl ⟨rfl, rfl⟩) hr (legal_snoc hI.legal ⟨r, rfl, rfl⟩)
          (by simp) (.inr rfl)⟩
      | deqUnlock v =>
        simp only [runPC, Option.some.injEq] at h
        subst h
        exact ⟨l, hI.next h0 (p1 := .idle) (.inr (.inr ⟨rfl, rfl, rfl⟩)) hI.rep (legal_snoc hI.legal rfl) (by simp)
          (.inl rfl)⟩
      | emptyRead =>
        simp only [runPC, Option.some.injEq] at h
        subst h
        exact ⟨l, hI.next h0 (p1 := .emptyRet _) (.inl ⟨rfl, rfl⟩) hI.rep
          (legal_snoc hI.legal ⟨L.empty hI.rep, rfl⟩) (by simp) (.inl rfl)⟩
      | emptyRet b =>
        simp only [runPC, Option.some.injEq] at h
        subst h
        exact ⟨l, hI.next h0 (p1 := .idle) (.inl ⟨rfl, rfl⟩) hI.rep (legal_snoc hI.legal rfl) (by simp) (.inl rfl)⟩
    · simp at h

/-- is it an exception after the element has left the queue? -/
def ActV.retThrows : ActV α → Bool
  | .throwRet _ => true
  | _ => false

/-- the elements an action leaks -/
def ActV.leaks : ActV α → Nat
  | .throwPush _ b => b
  | _ => 0

/-- the invariant; `c`: elements leaked so far, at most; `w`: no return value has thrown -/
structure InvV (M : Family Q cap F room) (c : Nat) (w : Bool) (s : State Q) (l : List α) : Prop where
  inv : Core (M.L c) s l
  phase : w = true → ∀ u, Settled (ofThread u s.log) (phaseAt PC.phase s.pcs u)

theorem startV_inv (M : Family Q cap F room) (m : Nat) : InvV M 0 true (start Q m) [] where
  inv := let h := start_inv (M.L 0) m
    ⟨h.lock, h.owner, h.good, h.rep, h.legal, h.nonempty⟩
  phase := fun _ u => ⟨_, by
    show PhaseRun (settled (ofThread u [])) _
    exact PhaseRun.nil, .inl (by
      show _ = phaseAt PC.phase (start Q m).pcs u
      simp only [phaseAt, start, List.getElem?_replicate]
      split
      · rename_i h; split at h
        · cases h; rfl
        · simp at h
      · rfl)⟩

theorem stepV_inv {M : Family Q cap F room} {c : Nat} {w : Bool} {s s' : State Q} {l : List α} (hI : InvV M c w s l)
    {a : ActV α} (h : stepV F s a = some s') (hr : ∀ t b, a = .throwPush t b → room s.q) :
    ∃ l', InvV M (c + a.leaks) (w && !a.retThrows) s' l' := by
  cases a with
  | act a =>
    have h : step s a = some s' := h
    obtain ⟨l', h'⟩ := step_core hI.inv h
    exact ⟨l', h', fun hw => (step_phase h).settled (hI.phase (by simpa [ActV.retThrows] using hw))⟩
  | throwPush t b =>
    simp only [stepV] at h
    split at h
    · rename_i a h0
      split at h <;> simp only [Option.some.injEq, reduceCtorEq] at h
      rename_i q hq
      subst h
      have hrep := M.fails hI.inv.rep (hr t b rfl) hq
      have h2 : Core (M.L (c + b)) { s with q := q } l :=
        ⟨hI.inv.lock, hI.inv.owner, hI.inv.good, hrep, hI.inv.legal, hI.inv.nonempty⟩
      exact ⟨l, h2.next h0 (p1 := .idle) (.inr (.inr ⟨rfl, rfl, rfl⟩)) hrep hI.inv.legal (by simp) (.inl rfl),
        fun hw => settled_fail h0 rfl rfl (hI.phase (by simpa [ActV.retThrows] using hw))⟩
    · simp at h
  | throwPop t =>
    simp only [stepV] at h
    split at h <;> simp only [Option.some.injEq, reduceCtorEq] at h
    subst h
    rename_i h0
    exact ⟨l, hI.inv.next h0 (p1 := .idle) (.inr (.inr ⟨rfl, rfl, rfl⟩)) hI.inv.rep hI.inv.legal (by simp) (.inl rfl),
      fun hw => settled_fail h0 rfl rfl (hI.phase (by simpa [ActV.retThrows] using hw))⟩
  | throwRet t =>
    simp only [stepV] at h
    split at h <;> simp only [Option.some.injEq, reduceCtorEq] at h
    subst h
    rename_i h0
    exact ⟨l, hI.inv.next h0 (p1 := .idle) (.inr (.inr ⟨rfl, rfl, rfl⟩)) hI.inv.rep hI.inv.legal (by simp) (.inl rfl),
      fun hw => by simp [ActV.retThrows] at hw⟩

/-- copies throw only where `room` holds -/
def Safe (F : PushFails Q) (room : Q.St → Prop) (as : List (ActV α)) (s : State Q) : Prop :=
  ∀ as1 t b as2 s1, as = as1 ++ .throwPush t b :: as2 → execV F as1 s = some s1 → room s1.q

theorem execV_inv {M : Family Q cap F room} : ∀ (as : List (ActV α)) {c : Nat} {w : Bool} {s s' : State Q} {l : List α},
    InvV M c w s l → Safe F room as s → execV F as s = some s' →
    ∃ l', InvV M (c + (as.map ActV.leaks).sum) (w && as.all (fun a => !a.retThrows)) s' l'
  | [], c, w, s, s', l, hI, _, h => by
    simp only [execV, Option.some.injEq] at h; subst h; exact ⟨l, by simpa using hI⟩
  | a :: as, c, w, s, s', l, hI, hs, h => by
    simp only [execV] at h
    split at h
    · rename_i s1 h1
      obtain ⟨l1, hI1⟩ := stepV_inv hI h1 (fun t b e => hs [] t b as s (by rw [e]; rfl) rfl)
      obtain ⟨l2, hI2⟩ := execV_inv as hI1 (fun as1 t b as2 s2 e1 e2 => hs (a :: as1) t b as2 s2 (by rw [e1]; rfl)
        (by simp only [execV, h1]; exact e2)) h
      exact ⟨l2, by simpa [Bool.and_assoc, Nat.add_assoc] using hI2⟩
    · simp at h

theorem stepV_length {s s' : State Q} {a : ActV α} (h : stepV F s a = some s') : s'.pcs.length = s.pcs.length := by
  cases a with
  | act a => exact step_length h
  | throwPush t b =>
    simp only [stepV] at h
    split at h
    · split at h <;> simp only [Option.some.injEq, reduceCtorEq] at h
      subst h; simp [State.goto]
    · simp at h
  | _ =>
    simp only [stepV] at h
    split at h <;> simp only [Option.some.injEq, reduceCtorEq] at h
    subst h; simp [State.goto]

theorem execV_length : ∀ {as : List (ActV α)} {s s' : State Q}, execV F as s = some s' → s'.pcs.length = s.pcs.length
  | [], s, s', h => by simp only [execV, Option.some.injEq] at h; rw [h]
  | a :: as, s, s', h => by
    simp only [execV] at h
    split at h
    · rename_i h1; exact (execV_length h).trans (stepV_length h1)
    · simp at h

/-- steps of operations under way, with or without an exception -/
def ActV.inner : ActV α → Bool
  | .act (.run _) => true
  | .act _ => false
  | _ => true

theorem execV_fuel {M : Family Q cap F room} : ∀ {as : List (ActV α)} {c : Nat} {w : Bool} {s s' : State Q} {l : List α},
    InvV M c w s l → Safe F room as s → (∀ a ∈ as, a.inner = true) → execV F as s = some s' →
    as.length + weight PC.fuel s'.pcs ≤ weight PC.fuel s.pcs
  | [], c, w, s, s', l, _, _, _, h => by simp only [execV, Option.some.injEq] at h; simp [h]
  | a :: as, c, w, s, s', l, hI, hs, ha, h => by
    simp only [execV] at h
    split at h
    · rename_i s1 h1
      obtain ⟨l1, hI1⟩ := stepV_inv hI h1 (fun t b e => hs [] t b as s (by rw [e]; rfl) rfl)
      have e2 := execV_fuel hI1 (fun as1 t b as2 s2 e1 e2 => hs (a :: as1) t b as2 s2 (by rw [e1]; rfl)
        (by simp only [execV, h1]; exact e2)) (fun b hb => ha b (by simp [hb])) h
      have key : ∀ {t : Nat} {p0 : PC α}, s.pcs[t]? = some p0 → 0 < p0.fuel →
          weight PC.fuel (s.pcs.set t .idle) + 1 ≤ weight PC.fuel s.pcs := by
        intro t p0 h0 hp
        have := weight_set PC.fuel h0 .idle
        have e : (PC.idle : PC α).fuel = 0 := rfl
        omega
      have e1 : weight PC.fuel s1.pcs + 1 ≤ weight PC.fuel s.pcs := by
        cases a with
        | act a =>
          cases a with
          | run t => exact fuel_step hI.inv h1
          | _ => have := ha _ (List.mem_cons_self ..); simp [ActV.inner] at this
        | throwPush t b =>
          simp only [stepV] at h1
          split at h1
          · rename_i h0
            split at h1 <;> simp only [Option.some.injEq, reduceCtorEq] at h1
            subst h1; exact key h0 (by simp [PC.fuel])
          · simp at h1
        | throwPop t =>
          simp only [stepV] at h1
          split at h1 <;> simp only [Option.some.injEq, reduceCtorEq] at h1
          rename_i h0
          subst h1; exact key h0 (by simp [PC.fuel])
        | throwRet t =>
          simp only [stepV] at h1
          split at h1 <;> simp only [Option.some.injEq, reduceCtorEq] at h1
          rename_i h0
          subst h1; exact key h0 (by simp [PC.fuel])
      simp only [List.length_cons]
      omega
    · simp at h

end NonBlocking

end Conc
end Efp
