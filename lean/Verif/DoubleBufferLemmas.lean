import Verif.DoubleBuffer
import Verif.ConcurrencyLemmas

/-!
# Lemmas about `DoubleBuffer`
-/

namespace Efp
namespace DBuf

open Spec Conc
open Cyclic (VcqS)

variable {α : Type}

/-! ### Histories -/

theorem dlegal_append (n : Nat) : ∀ (l1 l2 : List (Ev α)) (r w r' w' : List α),
    DLegal n (l1 ++ l2) r w r' w' ↔ ∃ r1 w1, DLegal n l1 r w r1 w1 ∧ DLegal n l2 r1 w1 r' w'
  | [], l2, r, w, r', w' => by
    constructor
    · intro h; exact ⟨r, w, ⟨rfl, rfl⟩, h⟩
    · rintro ⟨r1, w1, ⟨rfl, rfl⟩, h⟩; exact h
  | e :: l1, l2, r, w, r', w' => by
    cases e with
    | pop o =>
      cases o with
      | none => simp only [List.cons_append, DLegal]; grind
      | some v => simp only [List.cons_append, DLegal, dlegal_append n l1 l2]; grind
    | look b => simp only [List.cons_append, DLegal, dlegal_append n l1 l2]; grind
    | _ => simp only [List.cons_append, DLegal, dlegal_append n l1 l2]

theorem dlegal_snoc {n : Nat} {log : List (Nat × Ev α)} {r w r1 w1 r' w' : List α} {t : Nat} {e : Ev α}
    (h : DLegal n (events log) r w r1 w1) (h2 : DLegal n [e] r1 w1 r' w') :
    DLegal n (events (log ++ [(t, e)])) r w r' w' := by
  rw [events, List.map_append]
  exact (dlegal_append n _ _ _ _ _ _).mpr ⟨r1, w1, h, h2⟩

/-- nothing disappears except by overflow of the write queue -/
theorem dlegal_perm {n : Nat} : ∀ {es : List (Ev α)} {r w r' w' : List α}, DLegal n es r w r' w' →
    (r ++ w ++ pushes es).Perm (pops es ++ ddrops n es r w ++ (r' ++ w'))
  | [], r, w, r', w', h => by obtain ⟨rfl, rfl⟩ := h; simp [pushes, pops, ddrops]
  | e :: es, r, w, r', w', h => by
    cases e with
    | push a =>
      have ih := dlegal_perm (show DLegal n es r (fifoPush n w a) r' w' from h)
      have hp : pushes (Ev.push a :: es) = a :: pushes es := rfl
      have hp2 : pops (Ev.push a :: es) = pops es := rfl
      rw [hp, hp2]
      simp only [ddrops]
      generalize hD : (if w.length = n then w.take 1 else []) = D
      have hf := fifoPush_perm n w a
      rw [hD] at hf
      have h1 : (r ++ w ++ a :: pushes es).Perm (D ++ (r ++ fifoPush n w a ++ pushes es)) := by
        have e1 : r ++ w ++ a :: pushes es = r ++ (w ++ [a]) ++ pushes es := by simp
        have e2 : r ++ (D ++ fifoPush n w a) ++ pushes es = (r ++ D) ++ (fifoPush n w a ++ pushes es) := by simp
        have e3 : D ++ (r ++ fifoPush n w a ++ pushes es) = (D ++ r) ++ (fifoPush n w a ++ pushes es) := by simp
        have p1 := (List.Perm.append_left r hf).append_right (pushes es)
        rw [e1, e3]
        exact p1.trans (e2 ▸ List.perm_append_comm.append_right _)
      refine h1.trans ((List.Perm.append_left _ ih).trans ?_)
      have e4 : D ++ (pops es ++ ddrops n es r (fifoPush n w a) ++ (r' ++ w')) =
          (D ++ pops es) ++ (ddrops n es r (fifoPush n w a) ++ (r' ++ w')) := by simp
      have e5 : pops es ++ (D ++ ddrops n es r (fifoPush n w a)) ++ (r' ++ w') =
          (pops es ++ D) ++ (ddrops n es r (fifoPush n w a) ++ (r' ++ w')) := by simp
      rw [e4, e5]
      exact List.perm_append_comm.append_right _
    | swap =>
      have ih := dlegal_perm (show DLegal n es w r r' w' from h)
      have : (r ++ w ++ pushes (Ev.swap :: es)).Perm (w ++ r ++ pushes es) :=
        List.perm_append_comm.append_right _
      exact this.trans (by simpa [pops, ddrops] using ih)
    | pop o =>
      cases o with
      | none => exact h.elim
      | some v =>
        obtain ⟨r1, rfl, h⟩ := h
        have ih := dlegal_perm h
        simpa [pushes, pops, ddrops] using ih
    | look b => have := dlegal_perm h.2; simpa [pushes, pops, ddrops] using this
    | _ => have := dlegal_perm (show DLegal n es r w r' w' from h); simpa [pushes, pops, ddrops] using this

/-! ### The invariant -/

/-- program counters between taking and releasing the spinlock -/
def PC.holds : PC α → Bool
  | .enqPush _ | .enqUnlock | .swap | .swapUnlock => true
  | _ => false

/-- program counters of consumer operations -/
def PC.consumer : PC α → Bool
  | .swapSpin | .swap | .swapUnlock | .deq | .deqRet _ | .look | .lookRet _ => true
  | _ => false

/-- the part of an operation a thread is in -/
def PC.phase : PC α → Phase α
  | .idle => .outside
  | .enqSpin a | .enqPush a => .enqCalled a
  | .enqUnlock => .enqDone
  | .swapSpin | .swap => .swapCalled
  | .swapUnlock => .swapDone
  | .deq => .deqCalled
  | .deqRet v => .deqDone (some v)
  | .look => .lookCalled
  | .lookRet b => .lookDone b

/-- the invariant; `r` and `w` are the contents of the read and the write buffer -/
structure Inv (k : Kind) (n : Nat) (drain : Bool) (c : Nat) (s : State α) (r w : List α) : Prop where
  uniq : ∀ (t u : Nat) (p p' : PC α), s.pcs[t]? = some p → s.pcs[u]? = some p' → p.holds = true → p'.holds = true → t = u
  free : s.flag = false → ∀ (t : Nat) (p : PC α), s.pcs[t]? = some p → p.holds = false
  taken : s.flag = true → ∃ (t : Nat) (p : PC α), s.pcs[t]? = some p ∧ p.holds = true
  ptr : s.rp ≠ s.wp
  repR : Cyclic.Vcq.Rep k (s.buf s.rp) r
  repW : Cyclic.Vcq.Rep k (s.buf s.wp) w
  n0 : ∀ b, (s.buf b).n = n
  good : s.bad = false
  legal : DLegal n (events s.log) [] [] r w
  one : ∀ (t : Nat) (p : PC α), s.pcs[t]? = some p → p.consumer = true → t = c
  deq : ∀ t : Nat, s.pcs[t]? = some PC.deq → r ≠ []
  swp : drain = true → ∀ (t : Nat) (p : PC α), s.pcs[t]? = some p → p.phase = .swapCalled → r = []
  order : drain = true → (pops (events s.log) ++ r ++ w).Sublist (pushes (events s.log))
  phase : ∀ t : Nat, PhaseRun (ofThread t s.log) (phaseAt PC.phase s.pcs t)

theorem start_inv (k : Kind) {n : Nat} (hn : 0 < n) (m : Nat) (drain : Bool) (c : Nat) :
    Inv k n drain c (start n m : State α) [] [] := by
  have idle : ∀ {t : Nat} {p : PC α}, (start n m : State α).pcs[t]? = some p → p = .idle := by
    intro t p h; simp [start, List.getElem?_replicate] at h; exact h.2.symm
  exact {
    uniq := fun t u p p' h _ hp _ => by have := idle h; subst this; simp [PC.holds] at hp
    free := fun _ t p h => by have := idle h; subst this; rfl
    taken := fun h => by simp [start] at h
    ptr := by simp [start]
    repR := Cyclic.Vcq.mk0_rep k n hn
    repW := Cyclic.Vcq.mk0_rep k n hn
    n0 := fun b => by cases b <;> rfl
    good := rfl
    legal := ⟨rfl, rfl⟩
    one := fun t p h hp => by have := idle h; subst this; simp [PC.consumer] at hp
    deq := fun t h => by have := idle h; simp at this
    swp := fun _ t p h hp => rfl
    order := fun _ => by simp [start, events, pops, pushes]
    phase := fun t => by
      have : phaseAt PC.phase (start n m : State α).pcs t = .outside := by
        cases h : (start n m : State α).pcs[t]? with
        | none => simp only [phaseAt, h]
        | some p => rw [phaseAt_some h, idle h]; rfl
      rw [this]; exact PhaseRun.nil }

/-- a step of thread `t` from `p0` to `p1` keeps the invariant -/
theorem Inv.next {k : Kind} {n : Nat} {drain : Bool} {c : Nat} {s s' : State α} {r w r' w' : List α}
    (hI : Inv k n drain c s r w) {t : Nat} {p0 p1 : PC α} (h0 : s.pcs[t]? = some p0) (hpcs : s'.pcs = s.pcs.set t p1)
    (hk : (s'.flag = s.flag ∧ p1.holds = p0.holds) ∨ (s.flag = false ∧ s'.flag = true ∧ p1.holds = true) ∨
      (p0.holds = true ∧ s'.flag = false ∧ p1.holds = false))
    (hptr : s'.rp ≠ s'.wp) (hR : Cyclic.Vcq.Rep k (s'.buf s'.rp) r') (hW : Cyclic.Vcq.Rep k (s'.buf s'.wp) w')
    (hn0 : ∀ b, (s'.buf b).n = n) (hbad : s'.bad = s.bad) (hlegal : DLegal n (events s'.log) [] [] r' w')
    (hone : p1.consumer = true → t = c) (hdeq : p1 = .deq → r' ≠ [])
    (hrr : r' = r ∨ (p0.consumer = true ∧ t = c))
    (hswp : drain = true → p1.phase = .swapCalled → r' = [])
    (horder : drain = true → (pops (events s'.log) ++ r' ++ w').Sublist (pushes (events s'.log)))
    (hphase : ∀ u : Nat, PhaseRun (ofThread u s'.log) (phaseAt PC.phase (s.pcs.set t p1) u)) :
    Inv k n drain c s' r' w' := by
  have get : ∀ {u : Nat} {p : PC α}, s'.pcs[u]? = some p → (u = t ∧ p = p1) ∨ (u ≠ t ∧ s.pcs[u]? = some p) := by
    intro u p h
    rw [hpcs, get_set h0] at h
    by_cases hu : u = t
    · rw [if_pos hu] at h; exact .inl ⟨hu, (Option.some.inj h).symm⟩
    · rw [if_neg hu] at h; exact .inr ⟨hu, h⟩
  have self : s'.pcs[t]? = some p1 := by rw [hpcs, get_set h0, if_pos rfl]
  -- who holds the lock afterwards
  have others : ∀ {u : Nat} {p : PC α}, u ≠ t → s.pcs[u]? = some p → p1.holds = true → p.holds = false := by
    intro u p hu h h1
    rcases hk with ⟨_, h2⟩ | ⟨h2, _, _⟩ | ⟨_, _, h2⟩
    · cases hp : p.holds with
      | false => rfl
      | true => exact absurd (hI.uniq _ _ _ _ h h0 hp (h2 ▸ h1)) hu
    · exact hI.free h2 _ _ h
    · rw [h1] at h2; simp at h2
  exact {
    uniq := fun a b p p' ha hb hp hp' => by
      rcases get ha with ⟨rfl, rfl⟩ | ⟨ha1, ha2⟩ <;> rcases get hb with ⟨rfl, rfl⟩ | ⟨hb1, hb2⟩
      · rfl
      · have := others hb1 hb2 hp; rw [hp'] at this; simp at this
      · have := others ha1 ha2 hp'; rw [hp] at this; simp at this
      · exact hI.uniq _ _ _ _ ha2 hb2 hp hp'
    free := fun hf a p ha => by
      rcases get ha with ⟨rfl, rfl⟩ | ⟨ha1, ha2⟩
      · rcases hk with ⟨h1, h2⟩ | ⟨_, h1, _⟩ | ⟨_, _, h1⟩
        · rw [h2]; exact hI.free (h1 ▸ hf) _ _ h0
        · rw [h1] at hf; simp at hf
        · exact h1
      · rcases hk with ⟨h1, h2⟩ | ⟨_, h1, _⟩ | ⟨h1, _, _⟩
        · exact hI.free (h1 ▸ hf) _ _ ha2
        · rw [h1] at hf; simp at hf
        · cases hp : p.holds with
          | false => rfl
          | true => exact absurd (hI.uniq _ _ _ _ ha2 h0 hp h1) ha1
    taken := fun hf => by
      rcases hk with ⟨h1, h2⟩ | ⟨_, _, h1⟩ | ⟨_, h1, _⟩
      · obtain ⟨a, p, ha, hp⟩ := hI.taken (h1 ▸ hf)
        by_cases hat : a = t
        · subst hat
          rw [h0] at ha
          cases ha
          exact ⟨a, p1, self, h2 ▸ hp⟩
        · exact ⟨a, p, by rw [hpcs, get_set h0, if_neg hat]; exact ha, hp⟩
      · exact ⟨t, p1, self, h1⟩
      · rw [h1] at hf; simp at hf
    ptr := hptr
    repR := hR
    repW := hW
    n0 := hn0
    good := hbad.trans hI.good
    legal := hlegal
    one := fun a p ha hp => by
      rcases get ha with ⟨rfl, rfl⟩ | ⟨ha1, ha2⟩
      · exact hone hp
      · exact hI.one _ _ ha2 hp
    deq := fun a ha => by
      rcases get ha with ⟨rfl, hp⟩ | ⟨ha1, ha2⟩
      · exact hdeq hp.symm
      · rcases hrr with rfl | ⟨_, h1⟩
        · exact hI.deq _ ha2
        · exact absurd ((hI.one _ _ ha2 rfl).trans h1.symm) ha1
    swp := fun hd a p ha hp => by
      rcases get ha with ⟨rfl, rfl⟩ | ⟨ha1, ha2⟩
      · exact hswp hd hp
      · rcases hrr with rfl | ⟨_, h1⟩
        · exact hI.swp hd _ _ ha2 hp
        · have : p.consumer = true := by cases p <;> simp_all [PC.phase, PC.consumer]
          exact absurd ((hI.one _ _ ha2 this).trans h1.symm) ha1
    order := horder
    phase := fun a => by rw [hpcs]; exact hphase a }

theorem setBuf_buf (s : State α) (p : Bool) (b : VcqS α) (p' : Bool) :
    (s.setBuf p b).buf p' = if p' = p then b else s.buf p' := by
  cases p <;> cases p' <;> simp [State.setBuf, State.buf]

theorem setBuf_fields (s : State α) (p : Bool) (b : VcqS α) :
    (s.setBuf p b).pcs = s.pcs ∧ (s.setBuf p b).flag = s.flag ∧ (s.setBuf p b).rp = s.rp ∧ (s.setBuf p b).wp = s.wp ∧
    (s.setBuf p b).bad = s.bad ∧ (s.setBuf p b).log = s.log := by
  cases p <;> simp [State.setBuf]

theorem events_snoc (log : List (Nat × Ev α)) (t : Nat) (e : Ev α) : events (log ++ [(t, e)]) = events log ++ [e] := by
  simp [events]

theorem pushes_snoc (es : List (Ev α)) (e : Ev α) : pushes (es ++ [e]) = pushes es ++ pushes [e] := by
  simp [pushes]

theorem pops_snoc (es : List (Ev α)) (e : Ev α) : pops (es ++ [e]) = pops es ++ pops [e] := by
  simp [pops]

/-- an event other than a push or a pop leaves the order statement alone -/
theorem order_silent {log : List (Nat × Ev α)} {r w : List α} {t : Nat} {e : Ev α} (h1 : pushes [e] = []) (h2 : pops [e] = [])
    (h : (pops (events log) ++ r ++ w).Sublist (pushes (events log))) :
    (pops (events (log ++ [(t, e)])) ++ r ++ w).Sublist (pushes (events (log ++ [(t, e)]))) := by
  rw [events_snoc, pushes_snoc, pops_snoc, h1, h2]
  simpa using h

theorem call_inv {k : Kind} {n : Nat} {drain : Bool} {c : Nat} {s : State α} {r w : List α} (hI : Inv k n drain c s r w)
    {t : Nat} {p0 p1 : PC α} {e : Ev α} (h0 : s.pcs[t]? = some p0) (hh : p1.holds = p0.holds)
    (hone : p1.consumer = true → t = c) (hdeq : p1 = .deq → r ≠ []) (hswp : drain = true → p1.phase = .swapCalled → r = [])
    (hph : PhaseStep p0.phase e p1.phase) (h1 : pushes [e] = []) (h2 : pops [e] = []) (hl : DLegal n [e] r w r w) :
    Inv k n drain c ((s.goto t p1).emit t e) r w :=
  hI.next h0 rfl (.inl ⟨rfl, hh⟩) hI.ptr hI.repR hI.repW hI.n0 rfl (dlegal_snoc hI.legal hl) hone hdeq (.inl rfl) hswp
    (fun hd => order_silent h1 h2 (hI.order hd)) (phase_set hI.phase h0 _ hph)

theorem empty_eq {k : Kind} {b : VcqS α} {l : List α} (h : Cyclic.Vcq.Rep k b l) : Cyclic.Vcq.empty b = l.isEmpty := by
  have := h.size
  show decide (b.size = 0) = _
  rw [this]
  cases l <;> simp

theorem step_inv {k : Kind} {n : Nat} {drain : Bool} {c : Nat} {s s' : State α} {r w : List α}
    (hI : Inv k n drain c s r w) {a : Act α} (ha : Allowed drain c s a) (h : step k s a = some s') :
    ∃ r' w', Inv k n drain c s' r' w' := by
  cases a with
  | callEnq t a =>
    simp only [step] at h
    split at h <;> simp only [Option.some.injEq, reduceCtorEq] at h
    subst h
    rename_i h0
    exact ⟨r, w, call_inv hI h0 rfl (by simp [PC.consumer]) (by simp) (by simp [PC.phase]) (PhaseStep.callEnq a) rfl rfl
      ⟨rfl, rfl⟩⟩
  | callSwap t =>
    simp only [step] at h
    split at h <;> simp only [Option.some.injEq, reduceCtorEq] at h
    subst h
    rename_i h0
    refine ⟨r, w, call_inv hI h0 rfl (fun _ => ha.1) (by simp) (fun hd _ => ?_) PhaseStep.callSwap rfl rfl ⟨rfl, rfl⟩⟩
    have := ha.2 hd
    rw [empty_eq hI.repR] at this
    simpa using this
  | callDeq t =>
    simp only [step] at h
    split at h <;> simp only [Option.some.injEq, reduceCtorEq] at h
    subst h
    rename_i h0
    refine ⟨r, w, call_inv hI h0 rfl (fun _ => ha.1) (fun _ => ?_) (by simp [PC.phase]) PhaseStep.callDeq rfl rfl ⟨rfl, rfl⟩⟩
    have := ha.2
    rw [empty_eq hI.repR] at this
    rintro rfl
    simp at this
  | callEmpty t =>
    simp only [step] at h
    split at h <;> simp only [Option.some.injEq, reduceCtorEq] at h
    subst h
    rename_i h0
    exact ⟨r, w, call_inv hI h0 rfl (fun _ => ha) (by simp) (by simp [PC.phase]) PhaseStep.callLook rfl rfl ⟨rfl, rfl⟩⟩
  | run t =>
    simp only [step] at h
    split at h
    · rename_i p0 h0
      cases p0 with
      | idle => simp [runPC] at h
      | enqSpin a =>
        simp only [runPC] at h
        split at h <;> simp only [Option.some.injEq, reduceCtorEq] at h
        subst h
        rename_i hf
        exact ⟨r, w, hI.next h0 (p1 := .enqPush a) rfl (.inr (.inl ⟨by simpa using hf, rfl, rfl⟩)) hI.ptr hI.repR hI.repW
          hI.n0 rfl hI.legal (by simp [PC.consumer]) (by simp) (.inl rfl) (by simp [PC.phase]) hI.order
          (phase_set_silent hI.phase h0 rfl)⟩
      | swapSpin =>
        simp only [runPC] at h
        split at h <;> simp only [Option.some.injEq, reduceCtorEq] at h
        subst h
        rename_i hf
        exact ⟨r, w, hI.next h0 (p1 := .swap) rfl (.inr (.inl ⟨by simpa using hf, rfl, rfl⟩)) hI.ptr hI.repR hI.repW
          hI.n0 rfl hI.legal (fun _ => hI.one _ _ h0 rfl) (by simp) (.inl rfl) (fun hd _ => hI.swp hd _ _ h0 rfl)
          hI.order (phase_set_silent hI.phase h0 rfl)⟩
      | enqPush a =>
        obtain ⟨b, hb, hbn, hrep, -⟩ := Cyclic.Vcq.pushBack_run hI.repW a
        simp only [runPC, hb, Option.some.injEq] at h
        subst h
        obtain ⟨f1, f2, f3, f4, f5, f6⟩ := setBuf_fields s s.wp b
        rw [hI.n0] at hrep hbn
        refine ⟨r, fifoPush n w a, hI.next h0 (p1 := .enqUnlock) (by show (s.setBuf s.wp b).pcs.set _ _ = _; rw [f1])
          (.inl ⟨f2, rfl⟩) ?_ ?_ ?_ ?_ f5 ?_ (by simp [PC.consumer]) (by simp) (.inl rfl) (by simp [PC.phase]) ?_ ?_⟩
        · show (s.setBuf s.wp b).rp ≠ (s.setBuf s.wp b).wp
          rw [f3, f4]; exact hI.ptr
        · show Cyclic.Vcq.Rep k ((s.setBuf s.wp b).buf (s.setBuf s.wp b).rp) r
          rw [f3, setBuf_buf, if_neg hI.ptr]; exact hI.repR
        · show Cyclic.Vcq.Rep k ((s.setBuf s.wp b).buf (s.setBuf s.wp b).wp) _
          rw [f4, setBuf_buf, if_pos rfl]; exact hrep
        · intro p'
          show ((s.setBuf s.wp b).buf p').n = n
          rw [setBuf_buf]
          split
          · exact hbn
          · exact hI.n0 _
        · show DLegal n (events ((s.setBuf s.wp b).log ++ [(t, Ev.push a)])) [] [] r _
          rw [f6]; exact dlegal_snoc hI.legal ⟨rfl, rfl⟩
        · intro hd
          show (pops (events ((s.setBuf s.wp b).log ++ [(t, Ev.push a)])) ++ r ++ fifoPush n w a).Sublist
            (pushes (events ((s.setBuf s.wp b).log ++ [(t, Ev.push a)])))
          rw [f6, events_snoc, pops_snoc, pushes_snoc]
          have h1 := hI.order hd
          have h2 := (fifoPush_sublist n w a)
          have h3 : (pops (events s.log) ++ r ++ (w ++ [a])).Sublist (pushes (events s.log) ++ [a]) := by
            rw [← List.append_assoc]; exact h1.append_right _
          have h4 := (List.Sublist.append_left h2 (pops (events s.log) ++ r)).trans h3
          simpa [pushes, pops] using h4
        · show ∀ u : Nat, PhaseRun (ofThread u ((s.setBuf s.wp b).log ++ [(t, Ev.push a)])) _
          rw [f6]
          exact phase_set hI.phase h0 _ (PhaseStep.push a)
      | enqUnlock =>
        simp only [runPC, Option.some.injEq] at h
        subst h
        exact ⟨r, w, hI.next h0 (p1 := .idle) rfl (.inr (.inr ⟨rfl, rfl, rfl⟩)) hI.ptr hI.repR hI.repW
          hI.n0 rfl (dlegal_snoc hI.legal ⟨rfl, rfl⟩) (by simp [PC.consumer]) (by simp) (.inl rfl) (by simp [PC.phase])
          (fun hd => order_silent rfl rfl (hI.order hd)) (phase_set hI.phase h0 _ PhaseStep.retEnq)⟩
      | swap =>
        simp only [runPC, Option.some.injEq] at h
        subst h
        refine ⟨w, r, hI.next h0 (p1 := .swapUnlock) rfl (.inl ⟨rfl, rfl⟩) (Ne.symm hI.ptr) hI.repW hI.repR
          hI.n0 rfl (dlegal_snoc hI.legal ⟨rfl, rfl⟩) (fun _ => hI.one _ _ h0 rfl) (by simp)
          (.inr ⟨rfl, hI.one _ _ h0 rfl⟩) (by simp [PC.phase])
          (fun hd => ?_) (phase_set hI.phase h0 _ PhaseStep.swap)⟩
        have hr := hI.swp hd _ _ h0 rfl
        have := hI.order hd
        subst hr
        refine order_silent (log := s.log) rfl rfl ?_
        simpa using this
      | swapUnlock =>
        simp only [runPC, Option.some.injEq] at h
        subst h
        exact ⟨r, w, hI.next h0 (p1 := .idle) rfl (.inr (.inr ⟨rfl, rfl, rfl⟩)) hI.ptr hI.repR hI.repW
          hI.n0 rfl (dlegal_snoc hI.legal ⟨rfl, rfl⟩) (by simp [PC.consumer]) (by simp) (.inl rfl) (by simp [PC.phase])
          (fun hd => order_silent rfl rfl (hI.order hd)) (phase_set hI.phase h0 _ PhaseStep.retSwap)⟩
      | deq =>
        obtain ⟨v, r', rfl⟩ := List.exists_cons_of_ne_nil (hI.deq _ h0)
        obtain ⟨b, hb, hbn, hrep, -⟩ := Cyclic.Vcq.popFront_run hI.repR
        simp only [runPC, hb, Option.some.injEq] at h
        subst h
        obtain ⟨f1, f2, f3, f4, f5, f6⟩ := setBuf_fields s s.rp b
        rw [hI.n0] at hbn
        refine ⟨r', w, hI.next h0 (p1 := .deqRet v) (by show (s.setBuf s.rp b).pcs.set _ _ = _; rw [f1])
          (.inl ⟨f2, rfl⟩) ?_ ?_ ?_ ?_ f5 ?_ (fun _ => hI.one _ _ h0 rfl) (by simp)
          (.inr ⟨rfl, hI.one _ _ h0 rfl⟩) (by simp [PC.phase]) ?_ ?_⟩
        · show (s.setBuf s.rp b).rp ≠ (s.setBuf s.rp b).wp
          rw [f3, f4]; exact hI.ptr
        · show Cyclic.Vcq.Rep k ((s.setBuf s.rp b).buf (s.setBuf s.rp b).rp) r'
          rw [f3, setBuf_buf, if_pos rfl]; exact hrep
        · show Cyclic.Vcq.Rep k ((s.setBuf s.rp b).buf (s.setBuf s.rp b).wp) _
          rw [f4, setBuf_buf, if_neg (Ne.symm hI.ptr)]; exact hI.repW
        · intro p'
          show ((s.setBuf s.rp b).buf p').n = n
          rw [setBuf_buf]
          split
          · exact hbn
          · exact hI.n0 _
        · show DLegal n (events ((s.setBuf s.rp b).log ++ [(t, Ev.pop (some v))])) [] [] r' w
          rw [f6]; exact dlegal_snoc hI.legal ⟨r', rfl, rfl, rfl⟩
        · intro hd
          show (pops (events ((s.setBuf s.rp b).log ++ [(t, Ev.pop (some v))])) ++ r' ++ w).Sublist
            (pushes (events ((s.setBuf s.rp b).log ++ [(t, Ev.pop (some v))])))
          rw [f6, events_snoc, pops_snoc, pushes_snoc]
          have h1 := hI.order hd
          simpa [pushes, pops] using h1
        · show ∀ u : Nat, PhaseRun (ofThread u ((s.setBuf s.rp b).log ++ [(t, Ev.pop (some v))])) _
          rw [f6]
          exact phase_set hI.phase h0 _ (PhaseStep.pop _)
      | deqRet v =>
        simp only [runPC, Option.some.injEq] at h
        subst h
        exact ⟨r, w, call_inv hI h0 rfl (by simp [PC.consumer]) (by simp) (by simp [PC.phase]) (PhaseStep.retDeq _) rfl rfl
          ⟨rfl, rfl⟩⟩
      | look =>
        simp only [runPC, Option.some.injEq] at h
        subst h
        exact ⟨r, w, call_inv hI h0 rfl (fun _ => hI.one _ _ h0 rfl) (by simp) (by simp [PC.phase]) (PhaseStep.look _)
          rfl rfl ⟨empty_eq hI.repR, rfl, rfl⟩⟩
      | lookRet b =>
        simp only [runPC, Option.some.injEq] at h
        subst h
        exact ⟨r, w, call_inv hI h0 rfl (by simp [PC.consumer]) (by simp) (by simp [PC.phase]) (PhaseStep.retLook _) rfl rfl
          ⟨rfl, rfl⟩⟩
    · simp at h

theorem reach_inv {k : Kind} {n m : Nat} (hn : 0 < n) {drain : Bool} {c : Nat} {s : State α}
    (h : Reach k n m drain c s) : ∃ r w, Inv k n drain c s r w := by
  induction h with
  | start => exact ⟨[], [], start_inv k hn m drain c⟩
  | step a _ ha hs ih =>
    obtain ⟨r, w, hI⟩ := ih
    exact step_inv hI ha hs

theorem Inv.noRace {k : Kind} {n : Nat} {drain : Bool} {c : Nat} {s : State α} {r w : List α}
    (hI : Inv k n drain c s r w) : ¬ Race s := by
  rintro ⟨t, u, p, p', x, v, v', htu, ht, hu, hx, hx', hv⟩
  have hh : ¬ (p.holds = true ∧ p'.holds = true) := fun h => htu (hI.uniq _ _ _ _ ht hu h.1 h.2)
  have hc : ¬ (p.consumer = true ∧ p'.consumer = true) := fun h =>
    htu ((hI.one _ _ ht h.1).trans (hI.one _ _ hu h.2).symm)
  have hp := hI.ptr
  cases p <;> cases p' <;> simp_all [accesses, PC.holds, PC.consumer] <;> grind

/-! ### Progress -/

/-- how many steps an operation still has to take, at most -/
def PC.fuel : PC α → Nat
  | .idle => 0
  | .enqUnlock | .swapUnlock | .deqRet _ | .lookRet _ => 1
  | .enqPush _ | .swap | .deq | .look => 2
  | .enqSpin _ | .swapSpin => 3

theorem fuel_step {k : Kind} {n : Nat} {drain : Bool} {c : Nat} {s s' : State α} {r w : List α}
    (hI : Inv k n drain c s r w) {t : Nat} (h : step k s (.run t) = some s') :
    weight PC.fuel s'.pcs + 1 ≤ weight PC.fuel s.pcs := by
  have key : ∀ {t : Nat} {p0 : PC α} (p1 : PC α), s.pcs[t]? = some p0 → p1.fuel + 1 ≤ p0.fuel →
      weight PC.fuel (s.pcs.set t p1) + 1 ≤ weight PC.fuel s.pcs := by
    intro t p0 p1 h0 hf
    have := weight_set PC.fuel h0 p1
    omega
  simp only [step] at h
  split at h
  · rename_i p0 h0
    cases p0 with
    | idle => simp [runPC] at h
    | enqSpin a =>
      simp only [runPC] at h
      split at h <;> simp only [Option.some.injEq, reduceCtorEq] at h
      subst h; exact key _ h0 (by simp [PC.fuel])
    | swapSpin =>
      simp only [runPC] at h
      split at h <;> simp only [Option.some.injEq, reduceCtorEq] at h
      subst h; exact key _ h0 (by simp [PC.fuel])
    | enqPush a =>
      obtain ⟨b, hb, -⟩ := Cyclic.Vcq.pushBack_run hI.repW a
      simp only [runPC, hb, Option.some.injEq] at h
      subst h
      show weight PC.fuel ((s.setBuf s.wp b).pcs.set _ _) + 1 ≤ _
      rw [(setBuf_fields s s.wp b).1]; exact key _ h0 (by simp [PC.fuel])
    | deq =>
      obtain ⟨v, r', rfl⟩ := List.exists_cons_of_ne_nil (hI.deq _ h0)
      obtain ⟨b, hb, -⟩ := Cyclic.Vcq.popFront_run hI.repR
      simp only [runPC, hb, Option.some.injEq] at h
      subst h
      show weight PC.fuel ((s.setBuf s.rp b).pcs.set _ _) + 1 ≤ _
      rw [(setBuf_fields s s.rp b).1]; exact key _ h0 (by simp [PC.fuel])
    | _ =>
      simp only [runPC, Option.some.injEq] at h
      subst h; exact key _ h0 (by simp [PC.fuel])
  · simp at h

/-- if some thread is inside an operation, some thread can run -/
theorem progress {k : Kind} {n : Nat} {drain : Bool} {c : Nat} {s : State α} {r w : List α}
    (hI : Inv k n drain c s r w) {t : Nat} {p : PC α}
    (h0 : s.pcs[t]? = some p) (hp : p ≠ .idle) : ∃ u s', step k s (.run u) = some s' := by
  have run : ∀ {u : Nat} {p : PC α}, s.pcs[u]? = some p → p.holds = true → ∃ u s', step k s (.run u) = some s' := by
    intro u p hu hh
    cases p with
    | enqPush a =>
      obtain ⟨b, hb, -⟩ := Cyclic.Vcq.pushBack_run hI.repW a
      exact ⟨u, _, by simp only [step, hu, runPC, hb]; rfl⟩
    | enqUnlock => exact ⟨u, _, by simp only [step, hu, runPC]; rfl⟩
    | swap => exact ⟨u, _, by simp only [step, hu, runPC]; rfl⟩
    | swapUnlock => exact ⟨u, _, by simp only [step, hu, runPC]; rfl⟩
    | _ => simp [PC.holds] at hh
  cases hf : s.flag with
  | true =>
    obtain ⟨u, p, hu, hh⟩ := hI.taken hf
    exact run hu hh
  | false =>
    cases p with
    | idle => exact absurd rfl hp
    | enqSpin a => exact ⟨t, _, by simp only [step, h0, runPC, hf]; rfl⟩
    | swapSpin => exact ⟨t, _, by simp only [step, h0, runPC, hf]; rfl⟩
    | deq =>
      obtain ⟨v, r', rfl⟩ := List.exists_cons_of_ne_nil (hI.deq _ h0)
      obtain ⟨b, hb, -⟩ := Cyclic.Vcq.popFront_run hI.repR
      exact ⟨t, _, by simp only [step, h0, runPC, hb]; rfl⟩
    | deqRet v => exact ⟨t, _, by simp only [step, h0, runPC]; rfl⟩
    | look => exact ⟨t, _, by simp only [step, h0, runPC]; rfl⟩
    | lookRet b => exact ⟨t, _, by simp only [step, h0, runPC]; rfl⟩
    | _ => exact run h0 rfl

/-! ### Concrete schedules -/

instance (drain : Bool) (c : Nat) (s : State α) (a : Act α) : Decidable (Allowed drain c s a) := by
  cases a <;> simp only [Allowed] <;> infer_instance

/-- a schedule of clients that keep to `Allowed` -/
def execA (k : Kind) (drain : Bool) (c : Nat) : List (Act α) → State α → Option (State α)
  | [], s => some s
  | a :: as, s => if Allowed drain c s a then match step k s a with
      | some s' => execA k drain c as s'
      | none => none
    else none

theorem execA_reach {k : Kind} {n m : Nat} {drain : Bool} {c : Nat} : ∀ {as : List (Act α)} {s s' : State α},
    Reach k n m drain c s → execA k drain c as s = some s' → Reach k n m drain c s'
  | [], s, s', hr, h => by simp only [execA, Option.some.injEq] at h; exact h ▸ hr
  | a :: as, s, s', hr, h => by
    simp only [execA] at h
    split at h
    · rename_i ha
      split at h
      · rename_i h1; exact execA_reach (.step a hr ha h1) h
      · simp at h
    · simp at h

end DBuf
end Efp
