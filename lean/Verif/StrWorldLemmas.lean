import Verif.Spec.StrWorld
import Verif.StringLemmas2
import Verif.VecWorldLemmas

/-! Programs over many `String`s (helper lemmas). -/

namespace Efp
namespace StrWorld

open VecS Spec

/-! ### what calls do to the counters of blocks -/

/-- blocks and pointer as before -/
def Same (s t : Str) : Prop := t.led.alloc = s.led.alloc ∧ t.led.freed = s.led.freed ∧ t.ptr = s.ptr

/-- every block allocated or released is accounted for, and the counters only grow -/
def Fair (s t : Str) : Prop :=
  t.led.blocks - hadBlock t = s.led.blocks - hadBlock s ∧ s.led.alloc ≤ t.led.alloc ∧ s.led.freed ≤ t.led.freed

/-- a relation that composes -/
structure Pre (R : Str → Str → Prop) : Prop where
  refl : ∀ s, R s s
  trans : ∀ s t u, R s t → R t u → R s u

theorem pre_same : Pre Same :=
  ⟨fun _ => ⟨rfl, rfl, rfl⟩, fun _ _ _ h h' => ⟨h'.1.trans h.1, h'.2.1.trans h.2.1, h'.2.2.trans h.2.2⟩⟩

theorem pre_fair : Pre Fair :=
  ⟨fun _ => ⟨rfl, Nat.le_refl _, Nat.le_refl _⟩,
    fun _ _ _ h h' => ⟨h'.1.trans h.1, Nat.le_trans h.2.1 h'.2.1, Nat.le_trans h.2.2 h'.2.2⟩⟩

theorem Same.fair {s t : Str} (h : Same s t) : Fair s t := by
  obtain ⟨h1, h2, h3⟩ := h
  refine ⟨?_, by omega, by omega⟩
  simp only [Ledger.blocks, hadBlock, h1, h2, h3]

/-- all outcomes of `m` are related to the state before; `m` throws only if `T` -/
def All {β : Type} (R : Str → Str → Prop) (T : Prop) (m : Cpp Str β) : Prop :=
  ∀ s, match m s with
    | .ok _ t => R s t
    | .thrown t => T ∧ R s t
    | .ub _ => True

section
variable {β γ : Type} {R : Str → Str → Prop} {T : Prop} (hR : Pre R)

theorem All.ok {m : Cpp Str β} (h : All R T m) {s t : Str} {b : β} (e : m s = .ok b t) : R s t := by
  have := h s; rw [e] at this; exact this

theorem All.threw {m : Cpp Str β} (h : All R T m) {s t : Str} (e : m s = .thrown t) : T ∧ R s t := by
  have := h s; rw [e] at this; exact this

include hR in
theorem All.bind {m : Cpp Str β} {f : β → Cpp Str γ} (hm : All R T m) (hf : ∀ b, All R T (f b)) : All R T (m >>= f) := by
  intro s
  rw [Cpp.bind_run]
  cases e : m s with
  | ub u => trivial
  | thrown t => exact hm.threw e
  | ok b t =>
    have h1 := hm.ok e
    simp only
    cases e2 : f b t with
    | ub u => trivial
    | thrown u => exact ⟨((hf b).threw e2).1, hR.trans _ _ _ h1 ((hf b).threw e2).2⟩
    | ok c u => exact hR.trans _ _ _ h1 ((hf b).ok e2)

theorem All.mono {R' : Str → Str → Prop} {T' : Prop} (h : ∀ a b, R a b → R' a b) (hT : T → T') {m : Cpp Str β}
    (hm : All R T m) : All R' T' m := by
  intro s
  cases e : m s with
  | ub u => trivial
  | thrown t => exact ⟨hT (hm.threw e).1, h _ _ (hm.threw e).2⟩
  | ok b t => exact h _ _ (hm.ok e)

include hR in
theorem All.pure (b : β) : All R T (Pure.pure b : Cpp Str β) := fun s => hR.refl s

include hR in
theorem All.forUp {body : Nat → Cpp Str Unit} (hb : ∀ i, All R T (body i)) (lo n : Nat) :
    All R T (Efp.forUp body lo n) := by
  induction n generalizing lo with
  | zero => exact All.pure hR ()
  | succ n ih => exact All.bind hR (hb lo) fun _ => ih (lo + 1)

include hR in
theorem All.forDown {body : Nat → Cpp Str Unit} (hb : ∀ i, All R T (body i)) (hi n : Nat) :
    All R T (Efp.forDown body hi n) := by
  induction n generalizing hi with
  | zero => exact All.pure hR ()
  | succ n ih => exact All.bind hR (hb hi) fun _ => ih (hi - 1)

include hR in
theorem All.get : All R T Cpp.get := fun s => hR.refl s

include hR in
theorem All.throw (hT : T) : All R T (Cpp.throw : Cpp Str β) := fun s => ⟨hT, hR.refl s⟩

theorem All.ub (w : UB) : All R T (Cpp.ub w : Cpp Str β) := fun _ => trivial

end

/-- a primitive on the storage leaves the block counters alone -/
def Quiet {β : Type} (m : Cpp (Mem Nat) β) : Prop :=
  ∀ s, match m s with
    | .ok _ t => t.led.alloc = s.led.alloc ∧ t.led.freed = s.led.freed
    | .thrown _ => False
    | .ub _ => True

theorem quiet_construct (i a : Nat) : Quiet (Mem.construct i a) := by
  intro s
  by_cases h : i < s.cells.length <;> simp [Mem.construct, h]

theorem quiet_destroy (i : Nat) : Quiet (Mem.destroy .trivial i) := by
  intro s
  cases h : s.cells[i]? <;> simp [Mem.destroy, h]

theorem quiet_read (i : Nat) : Quiet (Mem.read i) := by
  intro s
  rcases h : s.cells[i]? with _ | (_ | _ | _) <;> simp [Mem.read, h]

theorem quiet_moveOut (i : Nat) : Quiet (Mem.moveOut .trivial i) := by
  intro s
  rcases h : s.cells[i]? with _ | (_ | _ | _) <;> simp [Mem.moveOut, h]

theorem quiet_assign (i a : Nat) : Quiet (Mem.assign .trivial i a) := by
  intro s
  cases h : s.cells[i]? <;> simp [Mem.assign, h]

theorem same_onMem {β : Type} {T : Prop} {m : Cpp (Mem Nat) β} (h : Quiet m) : All Same T (VecS.onMem m) := by
  intro s
  have := h s.toMem
  cases hp : s.ptr with
  | null => simp only [VecS.onMem, hp]
  | wild => simp only [VecS.onMem, hp]
  | block =>
    simp only [VecS.onMem, hp]
    cases e : m s.toMem with
    | ub u => trivial
    | thrown t => rw [e] at this; exact this.elim
    | ok b t => rw [e] at this; exact ⟨this.1, this.2, hp.symm⟩

theorem same_modify {T : Prop} {f : Str → Str} (h : ∀ s, Same s (f s)) : All Same T (Cpp.modify f) := fun s => h s

theorem same_destroyAll {T : Prop} : All Same T (VecS.destroyAll .trivial) := fun s =>
  All.forUp pre_same (fun _ => same_onMem (quiet_destroy _)) 0 s.size s

theorem same_relocate {T : Prop} (n i : Nat) (new : List (Cell Nat)) : All Same T (VecS.relocate .trivial n i new) := by
  induction n generalizing i new with
  | zero => exact All.pure pre_same _
  | succ n ih =>
    refine All.bind pre_same (same_onMem (quiet_moveOut i)) fun a => ?_
    refine All.bind pre_same ?_ fun new' => ?_
    · intro s
      simp only [VecS.constructIn]
      by_cases hi : i < new.length
      · rw [if_pos hi]; exact ⟨rfl, rfl, rfl⟩
      · rw [if_neg hi]; trivial
    · exact All.bind pre_same (same_modify fun s => ⟨rfl, rfl, rfl⟩) fun _ => ih _ _

/-- the same, with the counters of blocks one ahead -/
theorem fair_reallocate {T : Prop} (n : Nat) : All Fair T (VecS.reallocate .trivial n) := by
  intro s
  unfold VecS.reallocate
  rw [Cpp.bind_ok (Cpp.modify_run _ _), Cpp.bind_ok (Cpp.get_run _), Cpp.bind_run]
  cases e1 : VecS.relocate .trivial s.size 0 (List.replicate n Cell.raw)
      { s with led := { s.led with alloc := s.led.alloc + 1 } } with
  | ub u => simp only
  | thrown t => exact ((same_relocate (T := False) _ _ _).threw e1).1.elim
  | ok new t =>
    obtain ⟨a1, a2, a3⟩ := (same_relocate (T := False) _ _ _).ok e1
    simp only
    rw [Cpp.bind_run]
    cases e2 : VecS.destroyAll .trivial t with
    | ub u => trivial
    | thrown u => exact ((same_destroyAll (T := False)).threw e2).1.elim
    | ok _ u =>
      obtain ⟨b1, b2, b3⟩ := (same_destroyAll (T := False)).ok e2
      simp only
      rw [Cpp.bind_run]
      simp only at a1 a2 a3
      cases hp : u.ptr with
      | wild => simp only [VecS.dealloc, hp]
      | null =>
        simp only [VecS.dealloc, hp, Cpp.modify_run]
        have hs : s.ptr = .null := by rw [← a3, ← b3]; exact hp
        refine ⟨?_, by simp only; omega, by simp only; omega⟩
        simp only [Ledger.blocks, hadBlock, hs, if_true]
        simp; omega
      | block =>
        simp only [VecS.dealloc, hp, Cpp.modify_run]
        have hs : s.ptr = .block := by rw [← a3, ← b3]; exact hp
        refine ⟨?_, by simp only; omega, by simp only; omega⟩
        simp only [Ledger.blocks, hadBlock, hs, if_true]
        simp; omega

theorem fair_of_same {β : Type} {T : Prop} {m : Cpp Str β} (h : All Same T m) : All Fair T m :=
  h.mono (fun _ _ => Same.fair) id

theorem fair_reserve {T : Prop} (n : Nat) : All Fair T (VecS.reserve .trivial n) := by
  intro s
  by_cases h : n > s.cap
  · simpa only [VecS.reserve, if_pos h] using fair_reallocate n s
  · simp only [VecS.reserve, if_neg h]; exact pre_fair.refl s

theorem fair_shrinkToFit {T : Prop} : All Fair T (VecS.shrinkToFit .trivial : Cpp Str Unit) := by
  intro s
  by_cases h : s.size < s.cap + 1
  · simpa only [VecS.shrinkToFit, if_pos h] using fair_reallocate _ s
  · simp only [VecS.shrinkToFit, if_neg h]; exact pre_fair.refl s

theorem fair_modify {T : Prop} {f : Str → Str} (h : ∀ s, Same s (f s)) : All Fair T (Cpp.modify f) :=
  fair_of_same (same_modify h)

theorem fair_onMem {β : Type} {T : Prop} {m : Cpp (Mem Nat) β} (h : Quiet m) : All Fair T (VecS.onMem m) :=
  fair_of_same (same_onMem h)

theorem fair_resize {T : Prop} (n : Nat) : All Fair T (VecS.resize .trivial n : Cpp Str Unit) := by
  unfold VecS.resize
  refine All.bind pre_fair (All.get pre_fair) fun s => ?_
  dsimp only
  split
  · exact All.bind pre_fair (fair_reserve _) fun _ => fair_modify fun _ => ⟨rfl, rfl, rfl⟩
  · exact fair_modify fun _ => ⟨rfl, rfl, rfl⟩

theorem fair_growPush {T : Prop} : All Fair T (VecS.growPush .trivial : Cpp Str Unit) := by
  intro s
  by_cases h : s.size + 1 ≥ s.cap
  · simpa only [VecS.growPush, if_pos h] using fair_reserve _ s
  · simp only [VecS.growPush, if_neg h]; exact pre_fair.refl s

theorem fair_pushBack {T : Prop} (a : Nat) : All Fair T (VecS.pushBack .trivial a) := by
  unfold VecS.pushBack
  refine All.bind pre_fair fair_growPush fun _ => All.bind pre_fair (All.get pre_fair) fun s => ?_
  exact All.bind pre_fair (fair_onMem (quiet_construct _ _)) fun _ => fair_modify fun _ => ⟨rfl, rfl, rfl⟩

theorem fair_popBack : All Fair True (VecS.popBack .trivial : Cpp Str Unit) := by
  unfold VecS.popBack
  refine All.bind pre_fair (All.get pre_fair) fun s => ?_
  split
  · exact All.throw pre_fair trivial
  · exact All.bind pre_fair (fair_onMem (quiet_destroy _)) fun _ => fair_modify fun _ => ⟨rfl, rfl, rfl⟩

theorem fair_insert (i a : Nat) : All Fair True (VecS.insert .trivial i a : Cpp Str Unit) := by
  unfold VecS.insert
  refine All.bind pre_fair (All.get pre_fair) fun s => ?_
  split
  · exact All.throw pre_fair trivial
  · have rest : All Fair True (do
        Efp.forDown (fun i => do
          let x ← VecS.onMem (Mem.moveOut .trivial (i - 1))
          VecS.onMem (Mem.assign .trivial i x)) s.size (s.size - i)
        VecS.onMem (Mem.construct i a)
        Cpp.modify (fun s : Str => { s with size := s.size + 1 })) :=
      All.bind pre_fair (All.forDown pre_fair (fun _ => All.bind pre_fair (fair_onMem (quiet_moveOut _))
        fun _ => fair_onMem (quiet_assign _ _)) _ _) fun _ =>
        All.bind pre_fair (fair_onMem (quiet_construct _ _)) fun _ => fair_modify fun _ => ⟨rfl, rfl, rfl⟩
    dsimp only
    split
    · exact All.bind pre_fair (fair_reserve _) fun _ => rest
    · exact rest

theorem fair_erase (i : Nat) : All Fair True (VecS.erase .trivial i : Cpp Str Unit) := by
  unfold VecS.erase
  refine All.bind pre_fair (All.get pre_fair) fun s => ?_
  split
  · exact All.throw pre_fair trivial
  · refine All.bind pre_fair (fair_onMem (quiet_destroy _)) fun _ => ?_
    exact All.bind pre_fair (All.forUp pre_fair (fun _ => All.bind pre_fair (fair_onMem (quiet_moveOut _))
        fun _ => fair_onMem (quiet_assign _ _)) _ _) fun _ => fair_modify fun _ => ⟨rfl, rfl, rfl⟩

theorem fair_clear {T : Prop} : All Fair T (VecS.clear .trivial : Cpp Str Unit) := by
  unfold VecS.clear
  exact All.bind pre_fair (fair_of_same same_destroyAll) fun _ => fair_modify fun _ => ⟨rfl, rfl, rfl⟩

theorem fair_op (op : VecS.Op Nat) : All Fair True (op.run .trivial) := by
  cases op with
  | push a => exact fair_pushBack a
  | pop => exact fair_popBack
  | insert i a => exact fair_insert i a
  | erase i => exact fair_erase i
  | clear => exact fair_clear
  | reserve n => exact fair_reserve n
  | shrinkToFit => exact fair_shrinkToFit
  | shrinkTo n =>
    intro s
    by_cases h : n ≤ s.size
    · simpa only [VecS.Op.run, if_pos h] using fair_resize n s
    · simp only [VecS.Op.run, if_neg h]; exact pre_fair.refl s
  | setElem i a =>
    intro s
    by_cases h : i < s.size
    · simpa only [VecS.Op.run, VecS.setAt, if_pos h] using fair_onMem (T := True) (quiet_assign i a) s
    · simp only [VecS.Op.run, if_neg h]; exact pre_fair.refl s

theorem fair_readArg {T : Prop} (buf : List Nat) (i : Nat) : All Fair T (Str.readArg buf i) := by
  intro s
  unfold Str.readArg
  cases buf[i]? with
  | none => trivial
  | some c => exact pre_fair.refl s

theorem fair_readOf {T : Prop} (o : Str) (i : Nat) : All Fair T (Str.readOf o i) := by
  intro s
  unfold Str.readOf
  cases e : VecS.at_ i o with
  | ok a t => exact pre_fair.refl s
  | thrown t => exact ((same_onMem (T := False) (quiet_read i)).threw e).1.elim
  | ub u => trivial

theorem fair_appendC {T : Prop} (buf : List Nat) : All Fair T (Str.appendC buf) := by
  unfold Str.appendC
  cases Str.strlen buf with
  | none => exact All.ub _
  | some n =>
    exact All.forUp pre_fair (fun i => All.bind pre_fair (fair_readArg buf i) fun c => fair_pushBack c) 0 n

theorem fair_appendN {T : Prop} (n c : Nat) : All Fair T (Str.appendN n c) :=
  All.forUp pre_fair (fun _ => fair_pushBack c) 0 n

theorem fair_writeBody {T : Prop} (pos : Nat) (buf : List Nat) (i : Nat) : All Fair T (Str.writeBody pos buf i) :=
  All.bind pre_fair (fair_readArg buf i) fun _ => fair_onMem (quiet_assign _ _)

theorem fair_insertAt {T : Prop} (pos : Nat) (buf : List Nat) (len : Nat) : All Fair T (Str.insertAt pos buf len) := by
  intro s
  refine All.bind pre_fair (All.forDown pre_fair (fun i => ?_) _ _) (fun _ => ?_) s
  · exact All.bind pre_fair (fair_onMem (quiet_read _)) fun _ => fair_onMem (quiet_assign _ _)
  · exact All.bind pre_fair (All.forUp pre_fair (fun i => fair_writeBody pos buf i) _ _) fun _ =>
      fair_modify fun _ => ⟨rfl, rfl, rfl⟩

theorem fair_plusEq {T : Prop} (o : Str) : All Fair T (Str.plusEq o) :=
  All.forUp pre_fair (fun i => All.bind pre_fair (fair_readOf o i) fun c => fair_pushBack c) 0 o.size

theorem fair_sop (op : Str.SOp) : All Fair True op.run := by
  cases op with
  | base op => exact fair_op op
  | appendC buf => exact fair_appendC buf
  | appendN n c => exact fair_appendN n c
  | assignC buf => exact All.bind pre_fair fair_clear fun _ => fair_appendC buf
  | assignN n c => exact All.bind pre_fair fair_clear fun _ => fair_appendN n c
  | insertC pos buf =>
    intro s
    simp only [Str.SOp.run, Str.insertC]
    by_cases h : pos > s.size
    · rw [if_pos h]; exact ⟨trivial, pre_fair.refl s⟩
    · rw [if_neg h]
      cases Str.strlen buf with
      | none => trivial
      | some n => exact All.bind pre_fair (fair_reserve _) (fun _ => fair_insertAt pos buf n) s
  | insertCN pos buf n =>
    intro s
    simp only [Str.SOp.run, Str.insertCN]
    by_cases h : pos > s.size
    · rw [if_pos h]; exact ⟨trivial, pre_fair.refl s⟩
    · rw [if_neg h]
      exact All.bind pre_fair (fair_reserve _) (fun _ => fair_insertAt pos buf n) s
  | plus w =>
    intro s
    simp only [Str.SOp.run]
    cases Str.ofCount w w.length with
    | ok _ o => exact fair_plusEq o s
    | thrown _ => exact ⟨trivial, pre_fair.refl s⟩
    | ub u => trivial

theorem fair_copyOne {T : Prop} (o : Str) (i : Nat) : All Fair T (VecS.copyOne o i) := by
  intro s
  unfold VecS.copyOne
  cases e : VecS.at_ i o with
  | ok a t => exact fair_onMem (T := T) (quiet_construct i a) s
  | thrown t => exact ((same_onMem (T := False) (quiet_read i)).threw e).1.elim
  | ub u => trivial

theorem fair_copyAssign {T : Prop} (o : Str) : All Fair T (VecS.copyAssign .trivial o) := by
  unfold VecS.copyAssign
  refine All.bind pre_fair (fair_of_same same_destroyAll) fun _ => All.bind pre_fair (All.get pre_fair) fun s => ?_
  have rest : All Fair T (VecS.copyLoop o 0 o.size) := All.forUp pre_fair (fair_copyOne o) 0 o.size
  dsimp only
  split
  · exact All.bind pre_fair (fair_resize _) fun _ => rest
  · exact rest

/-! ### blocks from `::operator new[]` -/

/-- 1 if the variable holds a block from `::operator new[]` -/
def arr : Option (Str × Form) → Int
  | some (s, f) => if s.ptr = .block ∧ f = .array then 1 else 0
  | none => 0

theorem arr_single (s : Str) : arr (some (s, .single)) = 0 := by simp [arr]

theorem update_arr {s t : Str} (f : Form) (h : Fair s t) :
    (mismatch s f t.led : Int) + arr (some (t, formAfter s f t.led)) = arr (some (s, f)) := by
  obtain ⟨h1, h2, h3⟩ := h
  simp only [Ledger.blocks, hadBlock] at h1
  cases f with
  | single =>
    have : formAfter s .single t.led = .single := by unfold formAfter; split <;> rfl
    rw [this]; simp [arr, mismatch]
  | array =>
    by_cases ha : s.led.alloc < t.led.alloc
    · have : formAfter s .array t.led = .single := if_pos ha
      rw [this]
      by_cases hp : s.ptr = .block
      · have hf : s.led.freed < t.led.freed := by
          by_cases hq : t.ptr = .block
          · simp only [hp, hq, if_true] at h1; omega
          · simp only [hp, hq, if_true, if_false] at h1; omega
        simp [arr, mismatch, hp, hf]
      · simp [arr, mismatch, hp]
    · have : formAfter s .array t.led = .array := if_neg ha
      rw [this]
      by_cases hp : s.ptr = .block
      · by_cases hf : s.led.freed < t.led.freed
        · have hq : t.ptr ≠ .block := by
            intro hq; simp only [hp, hq, if_true] at h1; omega
          simp [arr, mismatch, hp, hf, hq]
        · have hq : t.ptr = .block := Decidable.byContradiction fun hq => by
            simp only [hp, hq, if_true, if_false] at h1; omega
          simp [arr, mismatch, hp, hf, hq]
      · have hq : t.ptr ≠ .block := by
          intro hq; simp only [hp, hq, if_true, if_false] at h1; omega
        simp [arr, mismatch, hp, hq]

theorem var_ok {W : StrWorld} {v : Nat} {s : Str} {f : Form} (h : W.var v = .ok (s, f)) :
    ∃ s0, W.vars[v]? = some (some (s0, f)) ∧ s = { s0 with led := W.led } := by
  unfold var at h
  split at h
  · rename_i s0 f0 e
    cases h; exact ⟨s0, e, rfl⟩
  · cases h

/-- blocks from `::operator new[]`, wrongly released ones included -/
def many (W : StrWorld) : Int := W.wrong + tot arr W.vars

theorem update_many {W : StrWorld} {v : Nat} {s0 s t : Str} {f : Form} (hv : W.vars[v]? = some (some (s0, f)))
    (hs : s = { s0 with led := W.led }) (h : Fair s t) : (W.update v s f t).many = W.many := by
  have h1 := update_arr f h
  have h2 : arr (some (s, f)) = arr (some (s0, f)) := by rw [hs]; rfl
  simp only [many, update, tot_set _ _ _ _ _ hv]
  push_cast
  omega

theorem store_many {W W' : StrWorld} {v : Nat} {s0 s : Str} {f : Form} {m : Cpp Str Unit} {b : Bool}
    (hv : W.vars[v]? = some (some (s0, f))) (hs : s = { s0 with led := W.led }) (hm : All Fair True m)
    (h : W.store v s f (m s) = .ok (W', b)) : W'.many = W.many := by
  unfold store at h
  cases e : m s with
  | ub u => rw [e] at h; cases h
  | ok _ t => rw [e] at h; cases h; exact update_many hv hs (hm.ok e)
  | thrown t => rw [e] at h; cases h; exact update_many hv hs (hm.threw e).2

theorem declare_many {W W' : StrWorld} {r : Out Str Unit} {b : Bool} (h : W.declare .single r = .ok (W', b)) :
    W'.many = W.many := by
  unfold declare at h
  split at h
  · cases h; simp [many, tot_append, arr_single]
  · cases h; rfl
  · cases h

theorem fill_ok (n c : Nat) (led : Ledger) :
    match Str.fill n c led with
    | .ok _ t => t.ptr = .block
    | .thrown _ => False
    | .ub _ => True := by
  have hs : All Same False (forUp (fun i => VecS.onMem (Mem.assign .trivial i c)) 0 n) :=
    All.forUp pre_same (fun i => same_onMem (quiet_assign i c)) 0 n
  cases h : Str.fill n c led with
  | ub u => trivial
  | thrown t => exact (hs.threw h).1
  | ok _ t => exact (hs.ok h).2.2

/-- blocks from `::operator new[]` made by one step -/
def fill1 : Step → Int
  | .make (.fill _ _) => 1
  | _ => 0

theorem moveAssign_blocks (s o : Str) :
    match VecS.moveAssign .trivial o s with
    | .ok o' t => t.ptr = o.ptr ∧ o'.ptr = .null ∧ t.led.freed = s.led.freed + hadBlock s
    | .thrown _ => False
    | .ub _ => True := by
  unfold VecS.moveAssign
  rw [Cpp.bind_run]
  cases e1 : VecS.destroyAll .trivial s with
  | ub u => trivial
  | thrown t => exact ((same_destroyAll (T := False)).threw e1).1
  | ok _ t =>
    obtain ⟨h1, h2, h3⟩ := (same_destroyAll (T := False)).ok e1
    simp only
    rw [Cpp.bind_run]
    cases hp : t.ptr with
    | wild => simp only [VecS.dealloc, hp]
    | null =>
      simp only [VecS.dealloc, hp]
      refine ⟨rfl, rfl, ?_⟩
      simp [hadBlock, ← h3, hp, h2]
    | block =>
      simp only [VecS.dealloc, hp]
      refine ⟨rfl, rfl, ?_⟩
      simp [hadBlock, ← h3, hp, h2]

theorem dtor_blocks (s : Str) :
    match VecS.dtor .trivial s with
    | .ok _ t => t.led.freed = s.led.freed + hadBlock s
    | .thrown _ => False
    | .ub _ => True := by
  unfold VecS.dtor
  cases hp : s.ptr with
  | wild => trivial
  | null => simp [hadBlock, hp]
  | block =>
    simp only
    rw [Cpp.bind_run]
    cases e1 : VecS.destroyAll .trivial s with
    | ub u => trivial
    | thrown t => exact ((same_destroyAll (T := False)).threw e1).1
    | ok _ t =>
      obtain ⟨h1, h2, h3⟩ := (same_destroyAll (T := False)).ok e1
      rw [hp] at h3
      simp only
      rw [Cpp.bind_run]
      simp [VecS.dealloc, h3, hadBlock, hp, h2]

theorem mismatch_arr {s : Str} {f : Form} {led : Ledger} (h : led.freed = s.led.freed + hadBlock s) :
    (mismatch s f led : Int) = arr (some (s, f)) := by
  by_cases hp : s.ptr = .block
  · have : s.led.freed < led.freed := by simp [hadBlock, hp] at h; omega
    cases f <;> simp [mismatch, arr, hp, this]
  · simp [mismatch, arr, hp]

theorem step_many {W W' : StrWorld} {op : Step} {b : Bool} (h : step op W = .ok (W', b)) :
    W'.many = W.many + fill1 op := by
  cases op with
  | make i =>
    simp only [step] at h
    cases i with
    | fill n c =>
      simp only [formOf, construct] at h
      have hf := fill_ok n c W.led
      cases e : Str.fill n c W.led with
      | ub u => rw [e] at h; cases h
      | thrown t => rw [e] at hf; exact hf.elim
      | ok _ t =>
        rw [e] at h hf
        cases h
        simp only at hf
        simp [many, tot_append, arr, hf, fill1]; omega
    | default => have := declare_many h; simpa [fill1] using this
    | cstr buf => have := declare_many h; simpa [fill1] using this
    | count buf n => have := declare_many h; simpa [fill1] using this
  | copy v =>
    simp only [step, bind, Except.bind] at h
    cases hv : W.var v with
    | error u => rw [hv] at h; cases h
    | ok x => rw [hv] at h; have := declare_many h; simpa [fill1] using this
  | substr v pos len =>
    simp only [step, bind, Except.bind] at h
    cases hv : W.var v with
    | error u => rw [hv] at h; cases h
    | ok x => rw [hv] at h; have := declare_many h; simpa [fill1] using this
  | move v =>
    simp only [step, bind, Except.bind] at h
    cases hv : W.var v with
    | error u => rw [hv] at h; cases h
    | ok x =>
      rw [hv] at h
      obtain ⟨s, f⟩ := x
      obtain ⟨s0, h0, hs⟩ := var_ok hv
      cases h
      have h2 : arr (some (s, f)) = arr (some (s0, f)) := by rw [hs]; rfl
      simp only [many, tot_append, tot_set _ _ _ _ _ h0, VecS.moveCtor, arr_single, h2, fill1]
      omega
  | assign v w =>
    simp only [step, bind, Except.bind] at h
    cases hv : W.var v with
    | error u => rw [hv] at h; cases h
    | ok x =>
      cases hw : W.var w with
      | error u => rw [hv, hw] at h; cases h
      | ok y =>
        rw [hv, hw] at h
        simp only at h
        obtain ⟨s0, h0, hs⟩ := var_ok hv
        by_cases e : v = w
        · rw [if_pos e] at h; cases h; simp [fill1]
        · rw [if_neg e] at h
          have := store_many h0 hs (fair_copyAssign y.1) h
          simpa [fill1] using this
  | moveAssign v w =>
    simp only [step, bind, Except.bind] at h
    cases hv : W.var v with
    | error u => rw [hv] at h; cases h
    | ok x =>
      cases hw : W.var w with
      | error u => rw [hv, hw] at h; cases h
      | ok y =>
        rw [hv, hw] at h
        obtain ⟨s, f⟩ := x
        obtain ⟨o, g⟩ := y
        simp only at h
        obtain ⟨s0, h0, hs⟩ := var_ok hv
        obtain ⟨o0, h1, ho⟩ := var_ok hw
        by_cases e : v = w
        · rw [if_pos e] at h; cases h; simp [fill1]
        · rw [if_neg e] at h
          have hb := moveAssign_blocks s o
          cases em : VecS.moveAssign .trivial o s with
          | ub u => rw [em] at h; cases h
          | thrown t => rw [em] at hb; exact hb.elim
          | ok o' t =>
            rw [em] at h hb
            cases h
            simp only at hb
            have hm := mismatch_arr (f := f) hb.2.2
            have e1 : arr (some (s, f)) = arr (some (s0, f)) := by rw [hs]; rfl
            have e2 : arr (some (t, g)) = arr (some (o0, g)) := by
              simp only [arr, hb.1, ho]
            have h1' : (W.vars.set v (some (t, g)))[w]? = some (some (o0, g)) := by
              rw [List.getElem?_set_ne e]; exact h1
            simp only [many, tot_set _ _ _ _ _ h1', tot_set _ _ _ _ _ h0, arr_single, e2, fill1]
            push_cast
            omega
  | plus v w =>
    simp only [step, bind, Except.bind] at h
    cases hv : W.var v with
    | error u => rw [hv] at h; cases h
    | ok x =>
      cases hw : W.var w with
      | error u => rw [hv, hw] at h; cases h
      | ok y =>
        rw [hv, hw] at h
        simp only at h
        obtain ⟨s0, h0, hs⟩ := var_ok hv
        by_cases e : v = w
        · rw [if_pos e] at h; cases h
        · rw [if_neg e] at h
          have := store_many h0 hs (fair_plusEq y.1) h
          simpa [fill1] using this
  | on v op =>
    simp only [step, bind, Except.bind] at h
    cases hv : W.var v with
    | error u => rw [hv] at h; cases h
    | ok x =>
      rw [hv] at h
      obtain ⟨s0, h0, hs⟩ := var_ok hv
      have := store_many h0 hs (fair_sop op) h
      simpa [fill1] using this
  | destroy v =>
    simp only [step, bind, Except.bind] at h
    cases hv : W.var v with
    | error u => rw [hv] at h; cases h
    | ok x =>
      rw [hv] at h
      obtain ⟨s, f⟩ := x
      simp only at h
      obtain ⟨s0, h0, hs⟩ := var_ok hv
      have hb := dtor_blocks s
      cases em : VecS.dtor .trivial s with
      | ub u => rw [em] at h; cases h
      | thrown t => rw [em] at hb; exact hb.elim
      | ok _ t =>
        rw [em] at h hb
        cases h
        simp only at hb
        have hm := mismatch_arr (f := f) hb
        have e1 : arr (some (s, f)) = arr (some (s0, f)) := by rw [hs]; rfl
        simp only [many, tot_set _ _ _ _ _ h0, fill1, arr]
        simp only [arr] at hm e1
        push_cast
        omega

theorem fills_cons (op : Step) (ops : List Step) : (Spec.fills (op :: ops) : Int) = fill1 op + Spec.fills ops := by
  cases op with
  | make i => cases i <;> simp [Spec.fills, fill1]; omega
  | _ => simp [Spec.fills, fill1]

theorem run_many {ops : List Step} {W W' : StrWorld} {evs : List Bool} (h : run ops W = .ok (W', evs)) :
    W'.many = W.many + Spec.fills ops := by
  induction ops generalizing W evs with
  | nil => cases h; simp [Spec.fills]
  | cons op ops ih =>
    simp only [run, bind, Except.bind] at h
    cases e : step op W with
    | error u => rw [e] at h; cases h
    | ok r =>
      obtain ⟨W1, b⟩ := r
      rw [e] at h
      simp only at h
      cases e2 : run ops W1 with
      | error u => rw [e2] at h; cases h
      | ok r2 =>
        obtain ⟨W2, es⟩ := r2
        rw [e2] at h
        cases h
        have := ih e2
        have := step_many e
        have := fills_cons op ops
        omega

end StrWorld
end Efp
