import Verif.Spec.StringLimits
import Verif.VectorLimitsLemmas
import Verif.StringLemmas

/-! Helper lemmas on `String` with `size_t` arithmetic and failing allocations. -/

namespace Efp
namespace Lim

open VecS

variable {α β γ : Type}

/-! ## Blocks -/

/-- blocks allocated and not released, other than the one the object holds -/
def lost (s : VecS α) : Int := s.led.blocks - hadBlock s

/-- the call loses no block -/
def KeepsLost (m : Cpp (VecS α) β) : Prop := ∀ s b t, m s = .ok b t → lost t = lost s

theorem KeepsLost.bind {m : Cpp (VecS α) β} {f : β → Cpp (VecS α) γ} (h1 : KeepsLost m)
    (h2 : ∀ b, KeepsLost (f b)) : KeepsLost (m >>= f) := by
  intro s c t h
  obtain ⟨b, u, hm, hf⟩ := bind_ok_inv h
  rw [h2 b u c t hf, h1 s b u hm]

/-- the action on the elements allocates and releases nothing -/
def NoAlloc (m : Cpp (Mem α) β) : Prop := ∀ s b t, m s = .ok b t → t.led.alloc = s.led.alloc ∧ t.led.freed = s.led.freed

theorem NoAlloc.construct (i : Nat) (a : α) : NoAlloc (Mem.construct i a) := by
  intro s b t h
  unfold Mem.construct at h
  split at h <;> cases h
  exact ⟨rfl, rfl⟩

theorem NoAlloc.assign (k : Kind) (i : Nat) (a : α) : NoAlloc (Mem.assign k i a) := by
  intro s b t h
  unfold Mem.assign at h
  split at h
  · cases h
  · split at h <;> cases h
    exact ⟨rfl, rfl⟩

theorem NoAlloc.read (i : Nat) : NoAlloc (Mem.read i : Cpp (Mem α) α) := by
  intro s b t h
  unfold Mem.read at h
  split at h <;> cases h
  exact ⟨rfl, rfl⟩

theorem NoAlloc.moveOut (k : Kind) (i : Nat) : NoAlloc (Mem.moveOut k i : Cpp (Mem α) α) := by
  intro s b t h
  unfold Mem.moveOut at h
  split at h
  · cases h
  · cases h
  · cases h
  · cases k <;> cases h <;> exact ⟨rfl, rfl⟩

theorem NoAlloc.destroy (k : Kind) (i : Nat) : NoAlloc (Mem.destroy k i : Cpp (Mem α) Unit) := by
  intro s b t h
  unfold Mem.destroy at h
  split at h
  · cases h
  · cases k
    · cases h; exact ⟨rfl, rfl⟩
    · simp only at h
      split at h <;> cases h
      exact ⟨rfl, rfl⟩

theorem KeepsLost.onMem {m : Cpp (Mem α) β} (h : NoAlloc m) : KeepsLost (VecS.onMem m) := by
  intro s b t e
  unfold VecS.onMem at e
  cases hp : s.ptr with
  | null => rw [hp] at e; cases e
  | wild => rw [hp] at e; cases e
  | block =>
    rw [hp] at e
    cases hm : m s.toMem with
    | ok b' m' =>
      rw [hm] at e; cases e
      obtain ⟨h1, h2⟩ := h _ _ _ hm
      simp only [lost, Ledger.blocks, hadBlock, h1, h2, hp]
    | thrown m' => rw [hm] at e; cases e
    | ub w => rw [hm] at e; cases e

theorem KeepsLost.modify {f : VecS α → VecS α} (h : ∀ s, (f s).led = s.led ∧ (f s).ptr = s.ptr) :
    KeepsLost (Cpp.modify f) := by
  intro s b t e; cases e
  obtain ⟨h1, h2⟩ := h s
  simp only [lost, hadBlock, h1, h2]

theorem KeepsLost.get : KeepsLost (Cpp.get : Cpp (VecS α) (VecS α)) := by intro s b t e; cases e; rfl

theorem KeepsLost.pure (b : β) : KeepsLost (pure b : Cpp (VecS α) β) := by intro s b t e; cases e; rfl

theorem KeepsLost.throw : KeepsLost (Cpp.throw : Cpp (VecS α) β) := by intro s b t e; cases e

theorem KeepsLost.ub (w : UB) : KeepsLost (Cpp.ub w : Cpp (VecS α) β) := by intro s b t e; cases e

theorem KeepsLost.forUp {f : Nat → Cpp (VecS α) Unit} (h : ∀ i, KeepsLost (f i)) (n : Nat) :
    ∀ lo, KeepsLost (forUp f lo n) := by
  induction n with
  | zero => intro lo s b t e; cases e; rfl
  | succ n ih => intro lo; exact KeepsLost.bind (h lo) fun _ => ih (lo + 1)

theorem KeepsLost.forDown {f : Nat → Cpp (VecS α) Unit} (h : ∀ i, KeepsLost (f i)) (n : Nat) :
    ∀ hi, KeepsLost (forDown f hi n) := by
  induction n with
  | zero => intro hi s b t e; cases e; rfl
  | succ n ih => intro hi; exact KeepsLost.bind (h hi) fun _ => ih (hi - 1)

theorem KeepsLost.destroyAll (k : Kind) : KeepsLost (destroyAll k : Cpp (VecS α) Unit) := fun s b t h =>
  KeepsLost.forUp (fun i => KeepsLost.onMem (NoAlloc.destroy k i)) s.size 0 s b t h

theorem KeepsLost.clear (k : Kind) : KeepsLost (VecS.clear k : Cpp (VecS α) Unit) :=
  KeepsLost.bind (KeepsLost.destroyAll k) fun _ => KeepsLost.modify fun _ => ⟨rfl, rfl⟩

theorem KeepsLost.popBack (k : Kind) : KeepsLost (popBack k : Cpp (VecS α) Unit) := by
  refine KeepsLost.bind KeepsLost.get fun s => ?_
  split
  · exact KeepsLost.throw
  · exact KeepsLost.bind (KeepsLost.onMem (NoAlloc.destroy _ _)) fun _ => KeepsLost.modify fun _ => ⟨rfl, rfl⟩

theorem KeepsLost.erase (k : Kind) (i : Nat) : KeepsLost (VecS.erase k i : Cpp (VecS α) Unit) := by
  refine KeepsLost.bind KeepsLost.get fun s => ?_
  split
  · exact KeepsLost.throw
  · refine KeepsLost.bind (KeepsLost.onMem (NoAlloc.destroy _ _)) fun _ =>
      KeepsLost.bind (KeepsLost.forUp (fun i => ?_) _ _) fun _ => KeepsLost.modify fun _ => ⟨rfl, rfl⟩
    exact KeepsLost.bind (KeepsLost.onMem (NoAlloc.moveOut _ _)) fun _ => KeepsLost.onMem (NoAlloc.assign _ _ _)

theorem KeepsLost.shift (k : Kind) (hi n : Nat) : KeepsLost (shift k hi n : Cpp (VecS α) Unit) :=
  KeepsLost.forDown (fun _ => KeepsLost.bind (KeepsLost.onMem (NoAlloc.moveOut _ _)) fun _ =>
    KeepsLost.onMem (NoAlloc.assign _ _ _)) n hi

theorem lost_afterRealloc (s : VecS α) (l : List α) (n : Nat) : lost (afterRealloc s l n) = lost s := by
  simp only [lost, afterRealloc, Ledger.blocks, hadBlock, if_pos]
  omega

theorem lost_reserve {k : Kind} {s t : VecS α} {l : List α} (h : Rep k s l) {n : Nat}
    (e : VecS.reserve k n s = .ok () t) : lost t = lost s := by
  rw [reserve_run h] at e
  cases e
  split
  · exact lost_afterRealloc s l n
  · rfl

theorem lost_after {k : Kind} {s t : VecS α} {l : List α} (h : Rep k s l) (op : Op α) (e : op.run k s = .ok () t) :
    lost t = lost s := by
  cases op with
  | push a =>
    simp only [Op.run, VecS.pushBack] at e
    obtain ⟨_, u, h1, e⟩ := bind_ok_inv e
    have hu : lost u = lost s := by
      rw [growPush_run h] at h1; cases h1
      split
      · exact lost_afterRealloc _ _ _
      · rfl
    rw [← hu]
    refine KeepsLost.bind KeepsLost.get (fun s => ?_) u () t e
    exact KeepsLost.bind (KeepsLost.onMem (NoAlloc.construct _ _)) fun _ => KeepsLost.modify fun _ => ⟨rfl, rfl⟩
  | pop => exact KeepsLost.popBack k s () t e
  | erase i => exact KeepsLost.erase k i s () t e
  | clear => exact KeepsLost.clear k s () t e
  | setElem i a =>
    simp only [Op.run] at e
    split at e
    · exact KeepsLost.onMem (NoAlloc.assign _ _ _) s () t e
    · cases e; rfl
  | reserve n => exact lost_reserve h e
  | shrinkToFit =>
    simp only [Op.run, shrinkToFit_run h] at e
    cases e
    exact lost_afterRealloc _ _ _
  | shrinkTo n =>
    simp only [Op.run] at e
    by_cases hn : n ≤ s.size
    · rw [if_pos hn] at e
      by_cases hg : n + 1 > s.cap
      · simp only [VecS.resize, Cpp.bind_run, if_pos hg, reserve_run h, Cpp.modify_run] at e
        cases e
        exact lost_afterRealloc s l (n + 1)
      · simp only [VecS.resize, Cpp.bind_run, if_neg hg, Cpp.modify_run] at e
        cases e; rfl
    · rw [if_neg hn] at e
      cases e; rfl
  | insert i a =>
    simp only [Op.run, VecS.insert] at e
    obtain ⟨s', u, h1, e⟩ := bind_ok_inv e
    cases h1
    by_cases hi : i > s.size
    · rw [if_pos hi] at e; cases e
    rw [if_neg hi] at e
    have tail : ∀ u : VecS α, (do
        shift k s.size (s.size - i)
        onMem (Mem.construct i a)
        Cpp.modify (fun s => { s with size := s.size + 1 })) u = .ok () t → lost t = lost u := by
      intro u hu
      refine KeepsLost.bind (KeepsLost.shift k s.size (s.size - i)) (fun _ => ?_) u () t hu
      exact KeepsLost.bind (KeepsLost.onMem (NoAlloc.construct _ _)) fun _ => KeepsLost.modify fun _ => ⟨rfl, rfl⟩
    by_cases hg : s.size + 1 ≥ s.cap
    · rw [if_pos hg] at e
      obtain ⟨_, v, h2, e⟩ := bind_ok_inv e
      rw [tail _ e]
      exact lost_reserve h h2
    · rw [if_neg hg] at e
      exact tail _ e

/-! ## The allocators -/

theorem allocate_eq {p : Plat} (hp : Spec.PlatOk p) {avail : Nat → Bool} (ha : Spec.Possible p avail) (n : Nat)
    (hn : p.hosted = true ∨ n * p.esz < 2 ^ p.w) :
    allocate p avail n = if avail (n * p.esz) then some n else none := by
  obtain ⟨hw, he⟩ := hp
  have hpow : 0 < 2 ^ p.w := Nat.two_pow_pos _
  have hdiv : n > (2 ^ p.w - 1) / p.esz ↔ ¬ n * p.esz < 2 ^ p.w := by
    rw [gt_iff_lt, ← Nat.not_le, Nat.le_div_iff_mul_le he]; omega
  unfold allocate
  by_cases hlt : n * p.esz < 2 ^ p.w
  · rw [if_neg (fun h => hdiv.mp h.2 hlt)]
    simp only [Plat.wrap, Nat.mod_eq_of_lt hlt, Nat.mul_div_cancel n he]
  · have hh : p.hosted = true := hn.resolve_right hlt
    rw [if_pos ⟨hh, hdiv.mpr hlt⟩]
    have : avail (n * p.esz) = false := by
      cases hav : avail (n * p.esz) with
      | false => rfl
      | true =>
        have h1 := ha _ hav
        have h2 : 2 ^ (p.w - 1) ≤ 2 ^ p.w := Nat.pow_le_pow_right (by omega) (by omega)
        omega
    simp [this]

end Lim

namespace StrLim

open VecS Lim Spec

/-! ## The invariant -/

/-- the string holds the text `l`, its block is smaller than half the address space, no other block is held -/
structure Inv (p : Plat) (s : Str) (l : List Nat) : Prop where
  rep : Rep .trivial s l
  small : Small p s
  lost : lost s = 0

/-- the outcome of a call is the one specified -/
def Does (p : Plat) (o : Out Str Unit) (r : Bool × Nat × List Nat) : Prop :=
  ∃ t, o = (if r.1 then .thrown t else .ok () t) ∧ t.cap = r.2.1 ∧ Inv p t r.2.2

theorem Does.same {p : Plat} {s : Str} {l : List Nat} (h : Inv p s l) {o : Out Str Unit} (e : o = .thrown s) :
    Does p o (true, s.cap, l) := ⟨s, e, rfl, h⟩

variable {p : Plat}

theorem base_does (hp : PlatOk p) (hh : p.hosted = true ∨ p.esz = 1) {av : Memory} (ha : Possible p (av 0))
    {s : Str} {l : List Nat} (h : Inv p s l) (op : VecS.Op Nat) (hop : ArgFits p op) :
    Does p (Lim.run p (av 0) .trivial op s) (baseStep p av op s.cap l) := by
  have hw : wanted ({ VecS.mk0 {} with size := l.length, cap := s.cap } : Str) op = wanted s op := by
    rw [← h.rep.1]
    cases op <;> rfl
  have hr := run_eq hp ha h.rep h.small op hop (wanted_fits hp hh h.rep h.small op hop)
  have hb := Str.base_step h.rep op
  unfold baseStep
  rw [hw]
  cases hv : vecStep op l with
  | none =>
    rw [hv] at hb
    simp only at hb
    refine Does.same h ?_
    rw [hr, hb]
    cases wanted s op with
    | none => rfl
    | some n => simp only [outcome]; split <;> rfl
  | some l' =>
    rw [hv] at hb
    obtain ⟨t, ht, htr, _⟩ := hb
    have hc := cap_after h.rep op ht
    have hl := lost_after h.rep op ht
    simp only
    cases hwt : wanted s op with
    | none =>
      rw [hwt] at hr hc
      refine ⟨t, by rw [hr]; exact ht, hc, htr, small_after ha h.rep h.small ?_ ht, hl.trans h.lost⟩
      intro n hn; rw [hwt] at hn; cases hn
    | some n =>
      rw [hwt] at hr hc
      simp only [outcome] at hr
      simp only
      by_cases hav : av 0 (n * p.esz) = true
      · rw [if_pos hav] at hr ⊢
        refine ⟨t, by rw [hr]; exact ht, hc, htr, small_after ha h.rep h.small ?_ ht, hl.trans h.lost⟩
        intro m hm; rw [hwt] at hm; cases hm; exact hav
      · rw [if_neg hav] at hr ⊢
        exact Does.same h hr

theorem push_does (hp : PlatOk p) (hh : p.hosted = true ∨ p.esz = 1) {av : Memory} (ha : ∀ i, Possible p (av i))
    (body : Nat → Cpp Str Unit) (w : List Nat) : ∀ (lo i : Nat) {s : Str} {l : List Nat}, Inv p s l →
    (∀ j (hj : j < w.length) (t : Str), body (lo + j) t = Lim.pushBack p (av (i + j)) .trivial w[j] t) →
    Does p (forUp body lo w.length s) (pushAll p av w i s.cap l) := by
  induction w with
  | nil => intro lo i s l h _; exact ⟨s, rfl, rfl, h⟩
  | cons c w ih =>
    intro lo i s l h hbody
    have hb := base_does hp hh (av := fun _ => av i) (ha i) h (.push c) trivial
    have h0 := hbody 0 (by simp) s
    simp only [Nat.add_zero, List.getElem_cons_zero] at h0
    have hrest : ∀ (t : Str) (l' : List Nat), Inv p t l' →
        Does p (forUp body (lo + 1) w.length t) (pushAll p av w (i + 1) t.cap l') := fun t l' ht =>
      ih (lo + 1) (i + 1) ht fun j hj u => by
        have := hbody (j + 1) (by simp; omega) u
        simp only [List.getElem_cons_succ] at this
        rw [show lo + 1 + j = lo + (j + 1) by omega, show i + 1 + j = i + (j + 1) by omega, this]
    simp only [baseStep, vecStep, wanted] at hb
    simp only [pushAll, List.length_cons, forUp_succ, Cpp.bind_run, h0]
    change Does p (Lim.pushBack p (av i) .trivial c s) _ at hb
    by_cases hc : s.cap ≤ l.length + 1
    · simp only [if_pos hc] at hb ⊢
      by_cases hav : av i ((if l.length = 0 then 2 else 2 * l.length + 1) * p.esz) = true
      · rw [if_pos hav] at hb ⊢
        obtain ⟨t, e, hcap, ht⟩ := hb
        have := hrest t _ ht
        rw [hcap] at this
        rw [e]; exact this
      · rw [if_neg hav] at hb ⊢
        obtain ⟨t, e, hcap, ht⟩ := hb
        rw [e]; exact ⟨t, rfl, hcap, ht⟩
    · simp only [if_neg hc] at hb ⊢
      obtain ⟨t, e, hcap, ht⟩ := hb
      have := hrest t _ ht
      rw [hcap] at this
      rw [e]; exact this

/-! ## Calls -/

theorem cChars_le (buf : List Nat) : (cChars buf).length ≤ buf.length := by
  obtain ⟨tail, ht⟩ := Str.cChars_prefix buf
  have := congrArg List.length ht
  simp at this; omega

theorem appendC_does (hp : PlatOk p) (hh : p.hosted = true ∨ p.esz = 1) {av : Memory} (ha : ∀ i, Possible p (av i))
    {s : Str} {l : List Nat} (h : Inv p s l) {buf : List Nat} (hb : 0 ∈ buf) :
    Does p (appendC p av buf s) (pushAll p av (cChars buf) 0 s.cap l) := by
  unfold appendC
  rw [Str.strlen_run hb]
  refine push_does hp hh ha _ (cChars buf) 0 0 h fun j hj t => ?_
  unfold appendBody
  rw [Nat.zero_add, Str.readArg_run (Str.cChars_get hj), Cpp.pure_bind]

theorem appendN_does (hp : PlatOk p) (hh : p.hosted = true ∨ p.esz = 1) {av : Memory} (ha : ∀ i, Possible p (av i))
    {s : Str} {l : List Nat} (h : Inv p s l) (n c : Nat) :
    Does p (appendN p av n c s) (pushAll p av (List.replicate n c) 0 s.cap l) := by
  have := push_does hp hh ha (fun i => Lim.pushBack p (av i) .trivial c) (List.replicate n c) 0 0 h
    (fun j hj t => by simp)
  simpa [appendN] using this

theorem clear_does {s : Str} {l : List Nat} (h : Inv p s l) :
    ∃ t, VecS.clear .trivial s = .ok () t ∧ t.cap = s.cap ∧ Inv p t [] := by
  obtain ⟨t, ht, hr, hc, hptr, _⟩ := clear_run h.rep
  refine ⟨t, ht, hc, hr, ?_, (KeepsLost.clear _ s () t ht).trans h.lost⟩
  have := h.small
  unfold Small at *; rwa [hc]

/-- adding to the size in `size_t` and in exact arithmetic -/
theorem size_add_eq {m : Cpp Str Unit} (hk : KeepsSize m) {s : Str} {n : Nat} (h : s.size + n < 2 ^ p.w) :
    (m >>= fun _ => Cpp.modify (fun t => { t with size := p.wrap (t.size + n) })) s =
      (m >>= fun _ => Cpp.modify (fun t => { t with size := t.size + n })) s := by
  rw [Cpp.bind_run, Cpp.bind_run]
  cases hm : m s with
  | ok b u =>
    have := hk s b u hm
    simp only [Cpp.modify_run, Plat.wrap, this, Nat.mod_eq_of_lt h]
  | thrown u => rfl
  | ub w => rfl

theorem KeepsSize.readArg (buf : List Nat) (i : Nat) : KeepsSize (Str.readArg buf i : Cpp Str Nat) := by
  intro s b t e
  unfold Str.readArg at e
  cases hb : buf[i]? with
  | none => rw [hb] at e; cases e
  | some c => rw [hb] at e; cases e; rfl

theorem KeepsSize.writeLoop (pos : Nat) (buf : List Nat) (n : Nat) :
    ∀ lo, KeepsSize (forUp (Str.writeBody pos buf) lo n) := by
  induction n with
  | zero => intro lo s b t e; cases e; rfl
  | succ n ih =>
    intro lo
    exact KeepsSize.bind (KeepsSize.bind (KeepsSize.readArg _ _) fun _ => KeepsSize.onMem _) fun _ => ih (lo + 1)

/-- the insertion loop in `size_t` and in exact arithmetic -/
theorem insertAt_eq {s : Str} {pos : Nat} {buf : List Nat} {n : Nat} (h : s.size + n < 2 ^ p.w) :
    insertAt p pos buf n s = Str.insertAt pos buf n s := by
  have k1 : KeepsSize (forDown (Str.shiftBody n) s.size (s.size - pos) >>= fun _ =>
      forUp (Str.writeBody pos buf) 0 n : Cpp Str Unit) :=
    KeepsSize.bind (KeepsSize.forDown (fun i => KeepsSize.bind (KeepsSize.onMem _) fun _ => KeepsSize.onMem _) _ _)
      fun _ => KeepsSize.writeLoop _ _ _ _
  have assoc : ∀ f : Str → Str, (forDown (Str.shiftBody n) s.size (s.size - pos) >>= fun _ =>
      forUp (Str.writeBody pos buf) 0 n >>= fun _ => Cpp.modify f) s =
      ((forDown (Str.shiftBody n) s.size (s.size - pos) >>= fun _ =>
        forUp (Str.writeBody pos buf) 0 n) >>= fun _ => Cpp.modify f) s := by
    intro f
    simp only [Cpp.bind_run]
    cases forDown (Str.shiftBody n) s.size (s.size - pos) s <;> rfl
  exact (assoc _).trans ((size_add_eq k1 h).trans (assoc _).symm)

theorem KeepsLost.insertAt (pos : Nat) (buf : List Nat) (n : Nat) : KeepsLost (Str.insertAt pos buf n) := by
  intro s b t e
  have hk : KeepsLost (forDown (Str.shiftBody n) s.size (s.size - pos) >>= fun _ =>
      forUp (Str.writeBody pos buf) 0 n >>= fun _ => Cpp.modify (fun t => { t with size := t.size + n }) :
      Cpp Str Unit) := by
    refine KeepsLost.bind (KeepsLost.forDown (fun i => ?_) _ _) fun _ =>
      KeepsLost.bind (KeepsLost.forUp (fun i => ?_) _ _) fun _ => KeepsLost.modify fun _ => ⟨rfl, rfl⟩
    · exact KeepsLost.bind (KeepsLost.onMem (NoAlloc.read _)) fun _ => KeepsLost.onMem (NoAlloc.assign _ _ _)
    · refine KeepsLost.bind ?_ fun _ => KeepsLost.onMem (NoAlloc.assign _ _ _)
      unfold Str.readArg
      split
      · exact KeepsLost.pure _
      · exact KeepsLost.ub _
  exact hk s b t e

theorem insert_does (hp : PlatOk p) (hh : p.hosted = true ∨ p.esz = 1) {av : Memory} (ha : Possible p (av 0))
    {s : Str} {l : List Nat} (h : Inv p s l) {pos : Nat} (hpos : pos ≤ l.length) {buf w : List Nat}
    (hw : ∀ i (hi : i < w.length), buf[i]? = some w[i]) {need : Nat} (hneed : l.length + w.length ≤ need)
    (hfit : need < 2 ^ p.w) :
    Does p ((do Lim.reserve p (av 0) .trivial need; insertAt p pos buf w.length : Cpp Str Unit) s)
      (grow p av need s.cap l (l.take pos ++ w ++ l.drop pos)) := by
  have hsz := h.rep.1
  have hr := reserve_eq hp ha .trivial need s (hh.imp id fun he _ => by rw [he]; omega)
  rw [Cpp.bind_run, hr, reserve_run h.rep]
  unfold grow
  by_cases hc : s.cap < need
  · simp only [gt_iff_lt, if_pos hc, outcome]
    by_cases hav : av 0 (need * p.esz) = true
    · simp only [if_pos hav]
      rw [insertAt_eq (by show l.length + w.length < _; omega)]
      obtain ⟨t, ht, htr, htc, _⟩ := Str.insertAt_run (rep_afterRealloc (k := .trivial) s l need (by omega)) hpos buf w hw
        (by show _ ≤ need; omega)
      have hcap : t.cap = need := htc
      refine ⟨t, ht, hcap, htr, ?_, ?_⟩
      · unfold Small; rw [hcap]; exact ha _ hav
      · rw [KeepsLost.insertAt _ _ _ _ _ _ ht, lost_afterRealloc, h.lost]
    · simp only [if_neg hav]
      exact Does.same h rfl
  · simp only [gt_iff_lt, if_neg hc, outcome]
    rw [insertAt_eq (by omega)]
    obtain ⟨t, ht, htr, htc, _⟩ := Str.insertAt_run h.rep hpos buf w hw (by omega)
    refine ⟨t, ht, htc, htr, ?_, ?_⟩
    · have := h.small; unfold Small at *; rwa [htc]
    · rw [KeepsLost.insertAt _ _ _ _ _ _ ht, h.lost]

/-! ## Constructors -/

/-- memory of half the address space or more is never available -/
theorem half_lt (hp : PlatOk p) {n : Nat} (h : n * p.esz < 2 ^ (p.w - 1)) : n < 2 ^ (p.w - 1) :=
  Nat.lt_of_le_of_lt (Nat.le_mul_of_pos_right _ hp.2) h

theorem pow_half (hp : PlatOk p) : 2 ^ p.w = 2 * 2 ^ (p.w - 1) ∧ 2 ≤ 2 ^ (p.w - 1) := by
  obtain ⟨hw, _⟩ := hp
  constructor
  · rw [Nat.mul_comm, ← Nat.pow_succ]; congr 1; omega
  · exact Nat.le_trans (by decide : 2 ≤ 2 ^ 1) (Nat.pow_le_pow_right (by omega) (by omega))

theorem unwind_null (n cap : Nat) (led : Ledger) :
    unwind { VecS.mk0 led with size := n, cap := cap } =
      .thrown ({ VecS.mk0 led with size := n, cap := cap } : Str) := rfl

/-- a string of the text `w`, in a block of `cap` slots for which the allocator was asked with the outcome `m` -/
theorem begin_does {m : Option Nat} {w : List Nat} {cap : Nat} (hcap : w.length ≤ cap)
    {avail : Nat → Bool} (ha : Possible p avail) (hm : m = if avail (cap * p.esz) then some cap else none)
    {body : Nat → Cpp Str Unit}
    (hbody : ∀ i (hi : i < w.length) (t : Str), body i t = onMem (Mem.assign .trivial i w[i]) t) :
    if avail (cap * p.esz) then
      ∃ t, begin_ w.length cap m {} (forUp body 0 w.length) = .ok () t ∧ t.cap = cap ∧ Inv p t w
    else ∃ t, begin_ w.length cap m {} (forUp body 0 w.length) = .thrown t ∧ t.led = {} := by
  by_cases hav : avail (cap * p.esz) = true
  · rw [if_pos hav] at hm ⊢
    subst hm
    obtain ⟨t, h1, h2, h3, h4, _⟩ := Str.blank_write body w cap hcap {} hbody
    have hx := Str.assign_range body w 0 [] (List.replicate w.length .raw) (List.replicate (cap - w.length) .raw)
      (Str.blank w.length cap {}) rfl
      (by simp [Str.blank, List.replicate_append_replicate, Nat.add_sub_cancel' hcap])
      (by simp) (fun i hi t => by simpa using hbody i hi t)
    have ht := h1.symm.trans hx
    injection ht with _ ht
    refine ⟨t, h1, h4, h2, ?_, ?_⟩
    · unfold Small; rw [h4]; exact ha _ hav
    · rw [ht]; rfl
  · rw [if_neg hav] at hm ⊢
    subst hm
    exact ⟨_, unwind_null _ _ _, rfl⟩

/-- what a constructor leaves -/
def InitDoes (p : Plat) (avail : Nat → Bool) (o : Out Str Unit) (slots : Nat) (w : List Nat) : Prop :=
  if avail (slots * p.esz) then ∃ t, o = .ok () t ∧ t.cap = slots ∧ Inv p t w
  else ∃ t, o = .thrown t ∧ t.led = {}

theorem alloc_text (hp : PlatOk p) (hh : p.hosted = true ∨ p.esz = 1) {avail : Nat → Bool} (ha : Possible p avail)
    {n : Nat} (hn : n < 2 ^ (p.w - 1)) : p.wrap (n + 1) = n + 1 ∧
      allocate p avail (n + 1) = if avail ((n + 1) * p.esz) then some (n + 1) else none := by
  obtain ⟨h1, h2⟩ := pow_half hp
  refine ⟨Nat.mod_eq_of_lt (by omega), allocate_eq hp ha _ (hh.imp id fun he => ?_)⟩
  rw [he]; omega

theorem ofCount_does (hp : PlatOk p) (hh : p.hosted = true ∨ p.esz = 1) {avail : Nat → Bool} (ha : Possible p avail)
    {buf : List Nat} {n : Nat} (hb : n ≤ buf.length) (hf : buf.length * p.esz < 2 ^ (p.w - 1)) :
    InitDoes p avail (ofCount p avail buf n) (n + 1) (buf.take n) := by
  have hl : (buf.take n).length = n := by simp; omega
  obtain ⟨h1, h2⟩ := alloc_text hp hh ha (n := n) (by have := half_lt hp hf; omega)
  unfold ofCount
  rw [h1]
  have := begin_does (w := buf.take n) (cap := n + 1) (by omega) ha h2 (body := Str.writeBody 0 buf) (fun i hi t => by
    unfold Str.writeBody
    rw [Str.readArg_run (Str.take_get hi), Cpp.pure_bind, Nat.zero_add])
  rwa [hl] at this

theorem ofCStr_does (hp : PlatOk p) (hh : p.hosted = true ∨ p.esz = 1) {avail : Nat → Bool} (ha : Possible p avail)
    {buf : List Nat} (hb : 0 ∈ buf) (hf : buf.length * p.esz < 2 ^ (p.w - 1)) :
    InitDoes p avail (ofCStr p avail buf) ((cChars buf).length + 1) (cChars buf) := by
  have hle := cChars_le buf
  obtain ⟨h1, h2⟩ := alloc_text hp hh ha (n := (cChars buf).length) (by have := half_lt hp hf; omega)
  unfold ofCStr
  rw [Str.strlen_run hb]
  simp only
  rw [h1]
  exact begin_does (w := cChars buf) (by omega) ha h2 (body := Str.writeBody 0 buf) (fun i hi t => by
    unfold Str.writeBody
    rw [Str.readArg_run (Str.cChars_get hi), Cpp.pure_bind, Nat.zero_add])

theorem fill_does (hp : PlatOk p) {avail : Nat → Bool} (ha : Possible p avail) {n : Nat} (c : Nat)
    (hf : n * p.esz < 2 ^ p.w) : InitDoes p avail (fill p avail n c) n (List.replicate n c) := by
  unfold fill
  have h1 : p.wrap (n * p.esz) = n * p.esz := Nat.mod_eq_of_lt hf
  rw [h1, Nat.mul_div_cancel n hp.2]
  have := begin_does (w := List.replicate n c) (cap := n) (by simp) ha (m := if avail (n * p.esz) then some n else none)
    rfl (body := fun i => onMem (Mem.assign .trivial i c)) (fun i hi t => by simp)
  simpa [InitDoes] using this

theorem inv_mk0 (p : Plat) : Inv p (VecS.mk0 {}) [] := ⟨rep_mk0 _ _, small_mk0 p, rfl⟩

theorem init_does (hp : PlatOk p) (hh : p.hosted = true ∨ p.esz = 1) {avail : Nat → Bool} (ha : Possible p avail)
    (i : Str.Init) (hi : initOk i) (hf : InitFits p i) :
    match initSlots i with
    | none => ∃ t, init p avail i = .ok () t ∧ t.cap = 0 ∧ Inv p t (strInit i)
    | some n => InitDoes p avail (init p avail i) n (strInit i) := by
  cases i with
  | default => exact ⟨_, rfl, rfl, inv_mk0 p⟩
  | cstr buf => exact ofCStr_does hp hh ha hi hf
  | count buf n => exact ofCount_does hp hh ha hi hf
  | fill n c => exact fill_does hp ha c hf

theorem substr_does (hp : PlatOk p) (hh : p.hosted = true ∨ p.esz = 1) {avail : Nat → Bool} (ha : Possible p avail)
    {s : Str} {l : List Nat} (h : Inv p s l) {pos : Nat} (hpos : pos ≤ l.length) (len : Nat) :
    InitDoes p avail (substr p avail s pos len) (min len (l.length - pos) + 1) ((l.drop pos).take len) := by
  have hsz := h.rep.1
  have hle := h.rep.size_le_cap
  have hsm := half_lt hp h.small
  have hn : (if len > s.size - pos then s.size - pos else len) = min len (l.length - pos) := by
    rw [hsz]; split <;> omega
  have hl : ((l.drop pos).take len).length = min len (l.length - pos) := by simp
  obtain ⟨h1, h2⟩ := alloc_text hp hh ha (n := min len (l.length - pos)) (by omega)
  unfold substr
  rw [if_neg (by omega)]
  simp only
  rw [hn, h1]
  have := begin_does (w := (l.drop pos).take len) (cap := min len (l.length - pos) + 1) (by omega) ha h2
    (body := Str.copyBody s pos) (fun i hi t => by
      unfold Str.copyBody
      rw [Str.readOf_rep h.rep (i := pos + i) (by omega), Cpp.pure_bind]
      simp)
  rwa [hl] at this

/-! ## One call, and histories -/

theorem step_does (hp : PlatOk p) (hh : p.hosted = true ∨ p.esz = 1) {av : Memory} (ha : ∀ i, Possible p (av i))
    {s : Str} {l : List Nat} (h : Inv p s l) (op : Str.SOp) (hop : sopOk op) (hf : StrArgFits p op) :
    Does p (run p av op s) (limStep p av op s.cap l) := by
  have hsz := h.rep.1
  have hle := h.rep.size_le_cap
  have hsm := half_lt hp h.small
  obtain ⟨hw1, hw2⟩ := pow_half hp
  cases op with
  | base op => exact base_does hp hh (ha 0) h op hf
  | appendC buf => exact appendC_does hp hh ha h hop
  | appendN n c => exact appendN_does hp hh ha h n c
  | assignC buf =>
    obtain ⟨t, ht, hc, hi⟩ := clear_does h
    show Does p (assignC p av buf s) (pushAll p av (cChars buf) 0 s.cap [])
    unfold assignC
    rw [Cpp.bind_ok ht, ← hc]
    exact appendC_does hp hh ha hi hop
  | assignN n c =>
    obtain ⟨t, ht, hc, hi⟩ := clear_does h
    show Does p (assignN p av n c s) (pushAll p av (List.replicate n c) 0 s.cap [])
    unfold assignN
    rw [Cpp.bind_ok ht, ← hc]
    exact appendN_does hp hh ha hi n c
  | insertC pos buf =>
    have hb := half_lt hp hf.2
    have hcl := cChars_le buf
    show Does p (insertC p av pos buf s) _
    unfold insertC
    simp only [limStep]
    by_cases hpos : pos ≤ l.length
    · rw [if_neg (by omega), if_pos hpos, Str.strlen_run hop]
      simp only
      rw [show p.wrap (s.size + (cChars buf).length) = l.length + (cChars buf).length by
        rw [hsz]; exact Nat.mod_eq_of_lt (by omega)]
      exact insert_does hp hh (ha 0) h hpos (fun i hi => Str.cChars_get hi) (Nat.le_refl _) (by omega)
    · rw [if_pos (by omega), if_neg hpos]
      exact Does.same h rfl
  | insertCN pos buf n =>
    have hb := half_lt hp hf.2.2
    have hn : n ≤ buf.length := hop
    have hl : (buf.take n).length = n := by simp; omega
    show Does p (insertCN p av pos buf n s) _
    unfold insertCN
    simp only [limStep]
    by_cases hpos : pos ≤ l.length
    · rw [if_neg (by omega), if_pos hpos]
      rw [show p.wrap (s.size + n + 1) = l.length + n + 1 by rw [hsz]; exact Nat.mod_eq_of_lt (by omega)]
      have := insert_does hp hh (ha 0) h hpos (buf := buf) (w := buf.take n) (need := l.length + n + 1)
        (fun i hi => Str.take_get hi) (by omega) (by omega)
      rwa [hl] at this
    · rw [if_pos (by omega), if_neg hpos]
      exact Does.same h rfl
  | plus w =>
    show Does p (plus p av w s) _
    have h1 := ofCount_does hp hh (ha 0) (buf := w) (n := w.length) (Nat.le_refl _) hf
    unfold plus
    simp only [limStep]
    unfold InitDoes at h1
    by_cases hav : av 0 ((w.length + 1) * p.esz) = true
    · rw [if_pos hav] at h1 ⊢
      obtain ⟨o, ho, _, hi⟩ := h1
      rw [ho]
      simp only [plusEq]
      have hr : Rep .trivial o w := by simpa using hi.rep
      rw [hr.1]
      refine push_does hp hh (fun i => ha (i + 1)) _ w 0 0 h fun j hj t => ?_
      unfold plusBody
      rw [Nat.zero_add, Str.readOf_rep hr hj, Cpp.pure_bind]
    · rw [if_neg hav] at h1 ⊢
      obtain ⟨o, ho, _⟩ := h1
      rw [ho]
      exact Does.same h rfl

theorem runOps_does (hp : PlatOk p) (hh : p.hosted = true ∨ p.esz = 1) (calls : List (Str.SOp × Memory)) :
    ∀ {s : Str} {l : List Nat}, Inv p s l →
    (∀ c ∈ calls, sopOk c.1 ∧ StrArgFits p c.1 ∧ ∀ j, Possible p (c.2 j)) →
    ∃ t, runOps p calls s = .ok (t, (limRun p calls s.cap l).2.2) ∧ t.cap = (limRun p calls s.cap l).1 ∧
      Inv p t (limRun p calls s.cap l).2.1 := by
  induction calls with
  | nil => intro s l h _; exact ⟨s, rfl, rfl, h⟩
  | cons c calls ih =>
    obtain ⟨op, av⟩ := c
    intro s l h hc
    obtain ⟨h1, h2, h3⟩ := hc (op, av) (List.mem_cons_self ..)
    obtain ⟨u, e, hcap, hu⟩ := step_does hp hh h3 h op h1 h2
    obtain ⟨t, e2, h4, h5⟩ := ih hu fun c hm => hc c (List.mem_cons_of_mem _ hm)
    refine ⟨t, ?_, ?_, ?_⟩
    · simp only [runOps, e, limRun]
      cases hb : (limStep p av op s.cap l).1 with
      | true => simp only [if_true, e2, hcap]; rfl
      | false => simp only [Bool.false_eq_true, if_false, e2, hcap]; rfl
    · simp only [limRun]; rw [h4, hcap]
    · simp only [limRun]; rw [← hcap]; exact h5

theorem dtor_does {s : Str} {l : List Nat} (h : Inv p s l) :
    ∃ t, dtor .trivial s = .ok () t ∧ t.led.alloc = t.led.freed := by
  obtain ⟨u, hu, hul⟩ := dtor_run h.rep
  refine ⟨u, hu, ?_⟩
  have := h.lost
  rw [hul]; simp only [lost, Ledger.blocks] at this ⊢; omega

theorem reachable_inv (hp : PlatOk p) (hh : p.hosted = true ∨ p.esz = 1) {s : Str} {l : List Nat}
    (h : StrLimReachable p s l) : Inv p s l := by
  obtain ⟨i, avail, calls, threw, h1, h2, h3, h4, h5, h6⟩ := h
  have hi := init_does hp hh h3 i h1 h2
  have key : ∀ t, init p avail i = .ok () t → Inv p t (strInit i) → Inv p s l := by
    intro t e ht
    obtain ⟨u, e2, _, hu⟩ := runOps_does hp hh calls ht h4
    unfold session at h5
    rw [e] at h5
    simp only [e2] at h5
    injection h5 with h5
    injection h5 with h5
    injection h5 with h5 _
    subst h5
    have := hu.rep.contents
    rw [h6] at this
    injection this with this
    rw [this]; exact hu
  cases hs : initSlots i with
  | none =>
    rw [hs] at hi
    obtain ⟨t, e, _, ht⟩ := hi
    exact key t e ht
  | some n =>
    rw [hs] at hi
    simp only [InitDoes] at hi
    by_cases hav : avail (n * p.esz) = true
    · rw [if_pos hav] at hi
      obtain ⟨t, e, _, ht⟩ := hi
      exact key t e ht
    · rw [if_neg hav] at hi
      obtain ⟨t, e, _⟩ := hi
      unfold session at h5
      rw [e] at h5
      cases h5

/-! ## The specification, in words -/

/-- either all of `w` is appended, or a proper beginning of it -/
theorem pushAll_text (av : Memory) (w : List Nat) : ∀ (i cap : Nat) (l : List Nat),
    ((pushAll p av w i cap l).1 = false ∧ (pushAll p av w i cap l).2.2 = l ++ w) ∨
    ((pushAll p av w i cap l).1 = true ∧ ∃ n < w.length, (pushAll p av w i cap l).2.2 = l ++ w.take n) := by
  induction w with
  | nil => intro i cap l; left; simp [pushAll]
  | cons c w ih =>
    intro i cap l
    have step : ∀ cap', ((pushAll p av w (i + 1) cap' (l ++ [c])).1 = false ∧
        (pushAll p av w (i + 1) cap' (l ++ [c])).2.2 = l ++ c :: w) ∨
        ((pushAll p av w (i + 1) cap' (l ++ [c])).1 = true ∧ ∃ n < (c :: w).length,
          (pushAll p av w (i + 1) cap' (l ++ [c])).2.2 = l ++ (c :: w).take n) := by
      intro cap'
      rcases ih (i + 1) cap' (l ++ [c]) with ⟨h1, h2⟩ | ⟨h1, n, hn, h2⟩
      · left; exact ⟨h1, by rw [h2]; simp⟩
      · right; exact ⟨h1, n + 1, by simp; omega, by rw [h2]; simp⟩
    simp only [pushAll]
    by_cases hc : cap ≤ l.length + 1
    · simp only [if_pos hc]
      by_cases hav : av i ((if l.length = 0 then 2 else 2 * l.length + 1) * p.esz) = true
      · simp only [if_pos hav]; exact step _
      · simp only [if_neg hav]; right; exact ⟨trivial, 0, by simp, by simp⟩
    · simp only [if_neg hc]; exact step _

/-- enough memory for twice the final text: nothing throws -/
theorem pushAll_enough (av : Memory) (w : List Nat) : ∀ (i cap : Nat) (l : List Nat),
    (∀ j n, n ≤ max 2 (2 * (l.length + w.length)) → av j (n * p.esz) = true) →
    (pushAll p av w i cap l).1 = false := by
  induction w with
  | nil => intro i cap l _; rfl
  | cons c w ih =>
    intro i cap l h
    have hr : ∀ cap', (pushAll p av w (i + 1) cap' (l ++ [c])).1 = false := fun cap' =>
      ih (i + 1) cap' (l ++ [c]) fun j n hn => h j n (by simp at hn ⊢; omega)
    simp only [pushAll]
    split
    · rw [if_pos (h i _ (by simp; split <;> omega))]
      exact hr _
    · exact hr _

/-- no memory at all: the characters that fit below the capacity are appended -/
theorem pushAll_none (w : List Nat) : ∀ (i cap : Nat) (l : List Nat),
    pushAll p (fun _ _ => false) w i cap l =
      (decide (w ≠ [] ∧ cap ≤ l.length + w.length), cap, l ++ w.take (cap - 1 - l.length)) := by
  induction w with
  | nil => intro i cap l; simp [pushAll]
  | cons c w ih =>
    intro i cap l
    simp only [pushAll]
    by_cases hc : cap ≤ l.length + 1
    · rw [if_pos hc]
      simp only [Bool.false_eq_true, if_false, show cap - 1 - l.length = 0 by omega, List.take_zero, List.append_nil]
      congr 1
      symm; rw [decide_eq_true_iff]; simp; omega
    · rw [if_neg hc, ih]
      have e1 : cap - 1 - l.length = (cap - 1 - (l ++ [c]).length) + 1 := by simp; omega
      rw [e1, List.take_succ_cons]
      simp only [List.append_assoc, List.singleton_append, List.length_append, List.length_cons, List.length_nil]
      congr 1
      apply decide_eq_decide.mpr
      rcases w with _ | ⟨b, w⟩
      · simp; omega
      · simp; omega

theorem limStep_text (av : Memory) (op : Str.SOp) (cap : Nat) (l : List Nat) :
    ((limStep p av op cap l).1 = false ∧ strStep op l = some (limStep p av op cap l).2.2) ∨
    ((limStep p av op cap l).1 = true ∧ leftBy op l (limStep p av op cap l).2.2) := by
  cases op with
  | base op =>
    simp only [limStep, baseStep, strStep, leftBy]
    cases vecStep op l with
    | none => right; exact ⟨rfl, rfl⟩
    | some l' =>
      simp only
      split
      · left; exact ⟨rfl, rfl⟩
      · split
        · left; exact ⟨rfl, rfl⟩
        · right; exact ⟨rfl, rfl⟩
  | appendC buf =>
    rcases pushAll_text (p := p) av (cChars buf) 0 cap l with ⟨h1, h2⟩ | ⟨h1, h2⟩
    · left; exact ⟨h1, by simp only [limStep, strStep, h2]⟩
    · right; exact ⟨h1, h2⟩
  | appendN n c =>
    rcases pushAll_text (p := p) av (List.replicate n c) 0 cap l with ⟨h1, h2⟩ | ⟨h1, m, hm, h2⟩
    · left; exact ⟨h1, by simp only [limStep, strStep, h2]⟩
    · right
      simp only [List.length_replicate] at hm
      refine ⟨h1, m, hm, ?_⟩
      simp only [limStep]
      rw [h2, List.take_replicate, Nat.min_eq_left (by omega)]
  | assignC buf =>
    rcases pushAll_text (p := p) av (cChars buf) 0 cap [] with ⟨h1, h2⟩ | ⟨h1, h2⟩
    · left; exact ⟨h1, by simp only [limStep, strStep, h2]; simp⟩
    · right; exact ⟨h1, by simpa [limStep, leftBy] using h2⟩
  | assignN n c =>
    rcases pushAll_text (p := p) av (List.replicate n c) 0 cap [] with ⟨h1, h2⟩ | ⟨h1, m, hm, h2⟩
    · left; exact ⟨h1, by simp only [limStep, strStep, h2]; simp⟩
    · right
      simp only [List.length_replicate] at hm
      refine ⟨h1, m, hm, ?_⟩
      simp only [limStep]
      rw [h2, List.take_replicate, Nat.min_eq_left (by omega)]
      simp
  | insertC pos buf =>
    simp only [limStep, strStep, leftBy, grow]
    split
    · split
      · split
        · left; exact ⟨rfl, rfl⟩
        · right; exact ⟨rfl, rfl⟩
      · left; exact ⟨rfl, rfl⟩
    · right; exact ⟨rfl, rfl⟩
  | insertCN pos buf n =>
    simp only [limStep, strStep, leftBy, grow]
    split
    · split
      · split
        · left; exact ⟨rfl, rfl⟩
        · right; exact ⟨rfl, rfl⟩
      · left; exact ⟨rfl, rfl⟩
    · right; exact ⟨rfl, rfl⟩
  | plus w =>
    simp only [limStep, strStep, leftBy]
    split
    · rcases pushAll_text (p := p) (fun i => av (i + 1)) w 0 cap l with ⟨h1, h2⟩ | ⟨h1, h2⟩
      · left; exact ⟨h1, by rw [h2]⟩
      · right; exact ⟨h1, .inr h2⟩
    · right; exact ⟨rfl, .inl rfl⟩

/-! ## `String(n, c)` -/

/-- writing past a block that is too small -/
theorem fill_oob (c : Nat) (n : Nat) : ∀ (lo : Nat) (s : Str), s.ptr = .block → lo ≤ s.cells.length →
    s.cells.length < lo + n → forUp (fun i => onMem (Mem.assign .trivial i c)) lo n s = .ub .oob := by
  induction n with
  | zero => intro lo s _ h1 h2; omega
  | succ n ih =>
    intro lo s hp h1 h2
    rw [forUp_succ, Cpp.bind_run]
    by_cases hl : lo < s.cells.length
    · have e : onMem (Mem.assign .trivial lo c) s = .ok () { s with cells := s.cells.set lo (.live c) } := by
        unfold onMem Mem.assign
        rw [hp]
        have : s.toMem.cells[lo]? = some s.cells[lo] := List.getElem?_eq_getElem hl
        simp only [this]
        rfl
      rw [e]
      exact ih (lo + 1) _ hp (by simp; omega) (by simp; omega)
    · have e : onMem (Mem.assign .trivial lo c) s = .ub .oob := by
        unfold onMem Mem.assign
        rw [hp]
        have : s.toMem.cells[lo]? = none := List.getElem?_eq_none (by show s.cells.length ≤ lo; omega)
        simp only [this]
      rw [e]

end StrLim
end Efp
