import Verif.Spec.VectorLimits
import Verif.VectorHistory

/-! Helper lemmas on `Vector` with `size_t` arithmetic. -/

namespace Efp
namespace Lim

open VecS

variable {α β γ : Type}

/-! ## Capacity and size are only changed where the code says so -/

/-- the call leaves the capacity alone -/
def KeepsCap (m : Cpp (VecS α) β) : Prop := ∀ s b t, m s = .ok b t → t.cap = s.cap

/-- the call leaves the size alone -/
def KeepsSize (m : Cpp (VecS α) β) : Prop := ∀ s b t, m s = .ok b t → t.size = s.size

theorem bind_ok_inv {σ : Type} {m : Cpp σ β} {f : β → Cpp σ γ} {s : σ} {c : γ} {t : σ}
    (h : (m >>= f) s = .ok c t) : ∃ b u, m s = .ok b u ∧ f b u = .ok c t := by
  rw [Cpp.bind_run] at h
  cases hm : m s with
  | ok b u => rw [hm] at h; exact ⟨b, u, rfl, h⟩
  | thrown u => rw [hm] at h; cases h
  | ub w => rw [hm] at h; cases h

theorem KeepsCap.bind {m : Cpp (VecS α) β} {f : β → Cpp (VecS α) γ} (h1 : KeepsCap m) (h2 : ∀ b, KeepsCap (f b)) :
    KeepsCap (m >>= f) := by
  intro s c t h
  obtain ⟨b, u, hm, hf⟩ := bind_ok_inv h
  rw [h2 b u c t hf, h1 s b u hm]

theorem KeepsSize.bind {m : Cpp (VecS α) β} {f : β → Cpp (VecS α) γ} (h1 : KeepsSize m)
    (h2 : ∀ b, KeepsSize (f b)) : KeepsSize (m >>= f) := by
  intro s c t h
  obtain ⟨b, u, hm, hf⟩ := bind_ok_inv h
  rw [h2 b u c t hf, h1 s b u hm]

theorem onMem_inv {m : Cpp (Mem α) β} {s : VecS α} {b : β} {t : VecS α} (h : onMem m s = .ok b t) :
    t.size = s.size ∧ t.cap = s.cap := by
  unfold onMem at h
  cases hp : s.ptr with
  | null => rw [hp] at h; cases h
  | wild => rw [hp] at h; cases h
  | block =>
    rw [hp] at h
    cases hm : m s.toMem with
    | ok b' m' => rw [hm] at h; cases h; exact ⟨rfl, rfl⟩
    | thrown m' => rw [hm] at h; cases h
    | ub w => rw [hm] at h; cases h

theorem KeepsCap.onMem (m : Cpp (Mem α) β) : KeepsCap (onMem m) := fun _ _ _ h => (onMem_inv h).2

theorem KeepsSize.onMem (m : Cpp (Mem α) β) : KeepsSize (VecS.onMem m) := fun _ _ _ h => (onMem_inv h).1

theorem KeepsCap.forUp {f : Nat → Cpp (VecS α) Unit} (h : ∀ i, KeepsCap (f i)) (n : Nat) :
    ∀ lo, KeepsCap (forUp f lo n) := by
  induction n with
  | zero => intro lo s b t e; cases e; rfl
  | succ n ih => intro lo; exact KeepsCap.bind (h lo) fun _ => ih (lo + 1)

theorem KeepsCap.forDown {f : Nat → Cpp (VecS α) Unit} (h : ∀ i, KeepsCap (f i)) (n : Nat) :
    ∀ hi, KeepsCap (forDown f hi n) := by
  induction n with
  | zero => intro hi s b t e; cases e; rfl
  | succ n ih => intro hi; exact KeepsCap.bind (h hi) fun _ => ih (hi - 1)

theorem KeepsSize.forDown {f : Nat → Cpp (VecS α) Unit} (h : ∀ i, KeepsSize (f i)) (n : Nat) :
    ∀ hi, KeepsSize (forDown f hi n) := by
  induction n with
  | zero => intro hi s b t e; cases e; rfl
  | succ n ih => intro hi; exact KeepsSize.bind (h hi) fun _ => ih (hi - 1)

theorem KeepsCap.get : KeepsCap (Cpp.get : Cpp (VecS α) (VecS α)) := by intro s b t e; cases e; rfl

theorem KeepsCap.throw : KeepsCap (Cpp.throw : Cpp (VecS α) β) := by intro s b t e; cases e

theorem KeepsCap.modify {f : VecS α → VecS α} (h : ∀ s, (f s).cap = s.cap) : KeepsCap (Cpp.modify f) := by
  intro s b t e; cases e; exact h s

theorem KeepsCap.popBack (k : Kind) : KeepsCap (popBack k : Cpp (VecS α) Unit) := by
  refine KeepsCap.bind KeepsCap.get fun s => ?_
  split
  · exact KeepsCap.throw
  · exact KeepsCap.bind (KeepsCap.onMem _) fun _ => KeepsCap.modify fun _ => rfl

theorem KeepsCap.erase (k : Kind) (i : Nat) : KeepsCap (VecS.erase k i : Cpp (VecS α) Unit) := by
  refine KeepsCap.bind KeepsCap.get fun s => ?_
  split
  · exact KeepsCap.throw
  · refine KeepsCap.bind (KeepsCap.onMem _) fun _ => KeepsCap.bind (KeepsCap.forUp (fun i => ?_) _ _) fun _ =>
      KeepsCap.modify fun _ => rfl
    exact KeepsCap.bind (KeepsCap.onMem _) fun _ => KeepsCap.onMem _

theorem KeepsCap.destroyAll (k : Kind) : KeepsCap (destroyAll k : Cpp (VecS α) Unit) := fun s b t h =>
  KeepsCap.forUp (fun _ => KeepsCap.onMem _) s.size 0 s b t h

theorem KeepsCap.clear (k : Kind) : KeepsCap (VecS.clear k : Cpp (VecS α) Unit) :=
  KeepsCap.bind (KeepsCap.destroyAll k) fun _ => KeepsCap.modify fun _ => rfl

/-- the shifting loop of `insert` -/
abbrev shift (k : Kind) (hi n : Nat) : Cpp (VecS α) Unit :=
  forDown (fun i => do
    let x ← onMem (Mem.moveOut k (i - 1))
    onMem (Mem.assign k i x)) hi n

theorem KeepsCap.shift (k : Kind) (hi n : Nat) : KeepsCap (shift k hi n : Cpp (VecS α) Unit) :=
  KeepsCap.forDown (fun _ => KeepsCap.bind (KeepsCap.onMem _) fun _ => KeepsCap.onMem _) n hi

theorem KeepsSize.shift (k : Kind) (hi n : Nat) : KeepsSize (shift k hi n : Cpp (VecS α) Unit) :=
  KeepsSize.forDown (fun _ => KeepsSize.bind (KeepsSize.onMem _) fun _ => KeepsSize.onMem _) n hi

/-- incrementing the size in `size_t` and in exact arithmetic is the same after a call that keeps it small -/
theorem bind_size_eq {m : Cpp (VecS α) β} (hk : KeepsSize m) (p : Plat) (s : VecS α) (h : s.size + 1 < 2 ^ p.w) :
    (do let _ ← m; Cpp.modify (fun s => { s with size := p.wrap (s.size + 1) })) s =
      (do let _ ← m; Cpp.modify (fun s => { s with size := s.size + 1 })) s := by
  rw [Cpp.bind_run, Cpp.bind_run]
  cases hm : m s with
  | ok b u =>
    have := hk s b u hm
    simp only [Cpp.modify_run, Plat.wrap, this, Nat.mod_eq_of_lt h]
  | thrown u => rfl
  | ub w => rfl

/-! ## The capacity after a call -/

theorem cap_after {k : Kind} {s t : VecS α} {l : List α} (h : Rep k s l) (op : Op α) (e : op.run k s = .ok () t) :
    t.cap = (Spec.wanted s op).getD s.cap := by
  have hsz := h.1
  have hle := h.size_le_cap
  cases op with
  | push a =>
    obtain ⟨u, hu, _, _, _, hc, _⟩ := pushBack_run h a
    simp only [Op.run] at e
    rw [hu] at e; cases e
    rw [hc]; simp only [Spec.wanted, ge_iff_le]
    split <;> rfl
  | pop => exact KeepsCap.popBack k s () t e
  | erase i => exact KeepsCap.erase k i s () t e
  | clear => exact KeepsCap.clear k s () t e
  | setElem i a =>
    simp only [Op.run] at e
    split at e
    · exact KeepsCap.onMem _ s () t e
    · cases e; rfl
  | reserve n =>
    simp only [Op.run, reserve_run h] at e
    cases e
    simp only [Spec.wanted, gt_iff_lt]
    split <;> rfl
  | shrinkToFit =>
    simp only [Op.run, shrinkToFit_run h] at e
    cases e
    simp only [Spec.wanted, afterRealloc, Option.getD_some, hsz]
  | shrinkTo n =>
    simp only [Op.run] at e
    simp only [Spec.wanted]
    by_cases hn : n ≤ s.size
    · rw [if_pos hn] at e
      by_cases hg : n + 1 > s.cap
      · simp only [VecS.resize, Cpp.bind_run, if_pos hg, reserve_run h, Cpp.modify_run] at e
        cases e
        rw [if_pos ⟨hn, by omega⟩]; rfl
      · simp only [VecS.resize, Cpp.bind_run, if_neg hg, Cpp.modify_run] at e
        cases e
        rw [if_neg (by omega)]; rfl
    · rw [if_neg hn] at e
      cases e
      rw [if_neg (by omega)]; rfl
  | insert i a =>
    simp only [Op.run, VecS.insert] at e
    obtain ⟨s', u, h1, e⟩ := bind_ok_inv e
    cases h1
    by_cases hi : i > s.size
    · rw [if_pos hi] at e; cases e
    rw [if_neg hi] at e
    simp only [Spec.wanted]
    have tail : ∀ u : VecS α, (do
        shift k s.size (s.size - i)
        onMem (Mem.construct i a)
        Cpp.modify (fun s => { s with size := s.size + 1 })) u = .ok () t → t.cap = u.cap := by
      intro u hu
      refine KeepsCap.bind (KeepsCap.shift k s.size (s.size - i)) (fun _ => ?_) u () t hu
      exact KeepsCap.bind (KeepsCap.onMem _) fun _ => KeepsCap.modify fun _ => rfl
    by_cases hg : s.size + 1 ≥ s.cap
    · rw [if_pos hg] at e
      obtain ⟨_, v, h2, e⟩ := bind_ok_inv e
      rw [reserve_run h, if_pos (by split <;> omega)] at h2
      cases h2
      rw [tail _ e, if_pos (show i ≤ s.size ∧ s.cap ≤ s.size + 1 by omega)]; rfl
    · rw [if_neg hg] at e
      rw [tail _ e, if_neg (by omega)]; rfl

/-! ## The allocators -/

theorem install_eq (k : Kind) (n : Nat) (s : VecS α) : install k n n s = VecS.reallocate k n s := rfl

theorem reallocate_eq {p : Plat} (hp : Spec.PlatOk p) {avail : Nat → Bool} (ha : Spec.Possible p avail) (k : Kind)
    (n : Nat) (hn : p.hosted = true ∨ n * p.esz < 2 ^ p.w) (s : VecS α) :
    Lim.reallocate p avail k n s = if avail (n * p.esz) then VecS.reallocate k n s else .thrown s := by
  obtain ⟨hw, he⟩ := hp
  have hpow : 0 < 2 ^ p.w := Nat.two_pow_pos _
  have hdiv : n > (2 ^ p.w - 1) / p.esz ↔ ¬ n * p.esz < 2 ^ p.w := by
    rw [gt_iff_lt, ← Nat.not_le, Nat.le_div_iff_mul_le he]; omega
  unfold Lim.reallocate allocate
  by_cases hlt : n * p.esz < 2 ^ p.w
  · rw [if_neg (fun h => hdiv.mp h.2 hlt)]
    simp only [Plat.wrap, Nat.mod_eq_of_lt hlt, Nat.mul_div_cancel n he]
    by_cases hav : avail (n * p.esz) = true
    · simp only [if_pos hav]; exact install_eq k n s
    · simp only [if_neg hav]
  · have hh : p.hosted = true := hn.resolve_right hlt
    rw [if_pos ⟨hh, hdiv.mpr hlt⟩]
    have : avail (n * p.esz) = false := by
      cases hav : avail (n * p.esz) with
      | false => rfl
      | true =>
        have h1 := ha _ hav
        have h2 : 2 ^ (p.w - 1) ≤ 2 ^ p.w := Nat.pow_le_pow_right (by omega) (by omega)
        omega
    simp [this]

/-- a call that wants `n` slots (or none) is the exact call if the memory is there, otherwise it throws -/
def outcome (p : Plat) (avail : Nat → Bool) (want : Option Nat) (r : Out (VecS α) Unit) (s : VecS α) :
    Out (VecS α) Unit :=
  match want with
  | none => r
  | some n => if avail (n * p.esz) then r else .thrown s

theorem reserve_eq {p : Plat} (hp : Spec.PlatOk p) {avail : Nat → Bool} (ha : Spec.Possible p avail) (k : Kind)
    (n : Nat) (s : VecS α) (hn : p.hosted = true ∨ (s.cap < n → n * p.esz < 2 ^ p.w)) :
    Lim.reserve p avail k n s =
      outcome p avail (if s.cap < n then some n else none) (VecS.reserve k n s) s := by
  unfold Lim.reserve VecS.reserve
  by_cases hc : s.cap < n
  · rw [if_pos hc, if_pos hc, if_pos hc, reallocate_eq hp ha k n (hn.imp id (fun h => h hc))]; rfl
  · rw [if_neg hc, if_neg hc, if_neg hc]; rfl

theorem bind_outcome {p : Plat} {avail : Nat → Bool} {want : Option Nat} {m m' : Cpp (VecS α) Unit}
    {f f' : Cpp (VecS α) Unit} {s : VecS α} (h : m s = outcome p avail want (m' s) s)
    (hf : ∀ t, m' s = .ok () t → f t = f' t) :
    (do m; f) s = outcome p avail want ((do m'; f') s) s := by
  rw [Cpp.bind_run, Cpp.bind_run, h]
  cases hm : m' s with
  | ok b u =>
    have := hf u hm
    cases want with
    | none => exact this
    | some n =>
      simp only [outcome]
      by_cases hav : avail (n * p.esz) = true
      · simp only [if_pos hav]; exact this
      · simp only [if_neg hav]
  | thrown u =>
    cases want with
    | none => rfl
    | some n =>
      simp only [outcome]
      by_cases hav : avail (n * p.esz) = true
      · simp only [if_pos hav]
      · simp only [if_neg hav]
  | ub w =>
    cases want with
    | none => rfl
    | some n =>
      simp only [outcome]
      by_cases hav : avail (n * p.esz) = true
      · simp only [if_pos hav]
      · simp only [if_neg hav]

/-- the capacity fits half the address space -/
def Small (p : Plat) (s : VecS α) : Prop := s.cap * p.esz < 2 ^ (p.w - 1)

theorem Small.facts {p : Plat} (hp : Spec.PlatOk p) {s : VecS α} (h : Small p s) :
    2 * s.cap + 2 ≤ 2 ^ p.w := by
  obtain ⟨hw, he⟩ := hp
  have h1 : s.cap ≤ s.cap * p.esz := Nat.le_mul_of_pos_right _ he
  have h2 : 2 ^ p.w = 2 * 2 ^ (p.w - 1) := by
    rw [Nat.mul_comm, ← Nat.pow_succ]; congr 1; omega
  unfold Small at h
  omega

theorem reserve_size {k : Kind} {s t : VecS α} {l : List α} (h : Rep k s l) {n : Nat}
    (e : VecS.reserve k n s = .ok () t) : t.size = s.size := by
  rw [reserve_run h] at e
  cases e
  split
  · exact h.1.symm
  · rfl

theorem run_eq {p : Plat} (hp : Spec.PlatOk p) {avail : Nat → Bool} (ha : Spec.Possible p avail) {k : Kind}
    {s : VecS α} {l : List α} (h : Rep k s l) (hs : Small p s) (op : Op α) (_hop : Spec.ArgFits p op)
    (hn : p.hosted = true ∨ ∀ n, Spec.wanted s op = some n → n * p.esz < 2 ^ p.w) :
    Lim.run p avail k op s = outcome p avail (Spec.wanted s op) (op.run k s) s := by
  have hf := hs.facts hp
  have hsz := h.1
  have hle := h.size_le_cap
  have w1 : p.wrap (s.size + 1) = s.size + 1 := Nat.mod_eq_of_lt (by omega)
  have w2 : p.wrap (2 * s.cap) = 2 * s.cap := Nat.mod_eq_of_lt (by omega)
  have w3 : p.wrap (s.cap + 1) = s.cap + 1 := Nat.mod_eq_of_lt (by omega)
  have w4 : p.wrap (2 * s.size + 1) = 2 * s.size + 1 := Nat.mod_eq_of_lt (by omega)
  cases op with
  | pop => rfl
  | erase i => rfl
  | clear => rfl
  | setElem i a => rfl
  | reserve n =>
    refine reserve_eq hp ha k n s (hn.imp id fun h hc => h n ?_)
    simp only [Spec.wanted, if_pos hc]
  | shrinkToFit =>
    show Lim.shrinkToFit p avail k s = _
    simp only [Lim.shrinkToFit, w1, w3, Spec.wanted, outcome, Op.run, VecS.shrinkToFit,
      if_pos (show s.size < s.cap + 1 by omega)]
    exact reallocate_eq hp ha k _ (hn.imp id fun h => h _ rfl) s
  | shrinkTo n =>
    show (if n ≤ s.size then Lim.resize p avail k n s else .ok () s) = _
    simp only [Op.run]
    by_cases hns : n ≤ s.size
    · have w5 : p.wrap (n + 1) = n + 1 := Nat.mod_eq_of_lt (by omega)
      simp only [if_pos hns, Spec.wanted, hns, true_and]
      simp only [Lim.resize, VecS.resize, Cpp.bind_run, Cpp.get_run, w5]
      by_cases hg : n + 1 > s.cap
      · rw [if_pos hg, if_pos hg, if_pos (show s.cap ≤ n by omega)]
        have hr := reserve_eq hp ha k (n + 1) s (hn.imp id fun h _ => h _ (by simp only [Spec.wanted]; rw [if_pos (by omega)]))
        rw [if_pos hg] at hr
        exact bind_outcome hr (fun _ _ => rfl)
      · rw [if_neg hg, if_neg hg, if_neg (show ¬ s.cap ≤ n by omega)]; rfl
    · simp only [if_neg hns, Spec.wanted, hns, false_and, if_false]; rfl
  | push a =>
    show Lim.pushBack p avail k a s = _
    have hg : Lim.growPush p avail k s = outcome p avail (Spec.wanted s (.push a)) (VecS.growPush k s) s := by
      simp only [Lim.growPush, VecS.growPush, w1, w4, Spec.wanted, ge_iff_le]
      by_cases hc : s.cap ≤ s.size + 1
      · simp only [if_pos hc]
        have hlt : s.cap < if s.size = 0 then 2 else 2 * s.size + 1 := by split <;> omega
        rw [reserve_eq hp ha k _ s (hn.imp id fun h _ => h _ (by simp only [Spec.wanted, if_pos hc])), if_pos hlt]
      · simp only [if_neg hc]; rfl
    refine bind_outcome hg fun t ht => ?_
    have hts : t.size = s.size := by
      rw [growPush_run h] at ht; cases ht
      split
      · exact hsz.symm
      · rfl
    simp only [Cpp.bind_run (m := Cpp.get), Cpp.get_run]
    exact bind_size_eq (KeepsSize.onMem _) p t (by omega)
  | insert i a =>
    show Lim.insert p avail k i a s = outcome _ _ _ (VecS.insert k i a s) _
    simp only [Lim.insert, VecS.insert, w1, w2, Cpp.bind_run (m := Cpp.get), Cpp.get_run]
    by_cases hi : i > s.size
    · simp only [if_pos hi, Spec.wanted]
      rw [if_neg (by omega)]; rfl
    · simp only [if_neg hi]
      have hi' : i ≤ s.size := by omega
      have tail : ∀ t : VecS α, t.size = s.size → (do
          shift k s.size (s.size - i)
          onMem (Mem.construct i a)
          Cpp.modify (fun s => { s with size := p.wrap (s.size + 1) })) t = (do
          shift k s.size (s.size - i)
          onMem (Mem.construct i a)
          Cpp.modify (fun s => { s with size := s.size + 1 })) t := by
        intro t ht
        rw [Cpp.bind_run, Cpp.bind_run]
        cases hm : shift k s.size (s.size - i) t with
        | ok b u =>
          have := KeepsSize.shift k _ _ _ _ _ hm
          exact bind_size_eq (KeepsSize.onMem _) p u (by omega)
        | thrown u => rfl
        | ub w => rfl
      simp only [Spec.wanted, hi', true_and]
      by_cases hc : s.size + 1 ≥ s.cap
      · have hlt : s.cap < if s.cap = 0 then 2 else 2 * s.cap := by split <;> omega
        have hr := reserve_eq hp ha k (if s.cap = 0 then 2 else 2 * s.cap) s
          (hn.imp id fun h _ => h _ (by simp only [Spec.wanted]; rw [if_pos ⟨hi', hc⟩]))
        rw [if_pos hlt] at hr
        rw [if_pos hc, if_pos hc, if_pos hc]
        exact bind_outcome hr fun t ht => tail t (reserve_size h ht)
      · rw [if_neg hc, if_neg hc, if_neg hc]
        exact tail s rfl

/-! ## Histories -/

theorem small_after {p : Plat} {avail : Nat → Bool} (ha : Spec.Possible p avail) {k : Kind}
    {s t : VecS α} {l : List α} (h : Rep k s l) (hs : Small p s) {op : Op α}
    (hav : ∀ n, Spec.wanted s op = some n → avail (n * p.esz) = true) (e : op.run k s = .ok () t) : Small p t := by
  have := cap_after h op e
  unfold Small at *
  rw [this]
  cases hw : Spec.wanted s op with
  | none => exact hs
  | some n => exact ha _ (hav n hw)

/-- every block a call wants has a size that fits `size_t` -/
theorem wanted_fits {p : Plat} (hp : Spec.PlatOk p) (hh : p.hosted = true ∨ p.esz = 1) {k : Kind} {s : VecS α}
    {l : List α} (h : Rep k s l) (hs : Small p s) (op : Op α) (hf1 : Spec.ArgFits p op) :
    p.hosted = true ∨ ∀ n, Spec.wanted s op = some n → n * p.esz < 2 ^ p.w := by
  refine hh.imp id fun he n hw => ?_
  have hf := hs.facts hp
  have hle := h.size_le_cap
  have h4 : 2 ^ 2 ≤ 2 ^ p.w := Nat.pow_le_pow_right (by omega) hp.1
  rw [he, Nat.mul_one]
  cases op with
  | push a =>
    simp only [Spec.wanted] at hw
    split at hw <;> simp at hw
    subst hw; split <;> omega
  | insert i a =>
    simp only [Spec.wanted] at hw
    split at hw <;> simp at hw
    subst hw; split <;> omega
  | reserve m =>
    simp only [Spec.wanted] at hw
    split at hw <;> simp at hw
    subst hw; exact hf1
  | shrinkToFit => simp only [Spec.wanted, Option.some.injEq] at hw; omega
  | shrinkTo m =>
    simp only [Spec.wanted] at hw
    split at hw <;> simp at hw
    omega
  | pop => cases hw
  | erase i => cases hw
  | clear => cases hw
  | setElem i a => cases hw

theorem runOps_run {p : Plat} (hp : Spec.PlatOk p) (hh : p.hosted = true ∨ p.esz = 1) {k : Kind}
    (ops : List (Op α × (Nat → Bool))) : ∀ {s : VecS α} {l : List α}, Rep k s l → Spare s → Small p s →
    (∀ c ∈ ops, Spec.ArgFits p c.1 ∧ Spec.Possible p c.2) →
    (k = .managed → ∀ c ∈ ops, ∀ m, Spec.endOp c.1 m) →
    ∃ t evs l', runOps p k ops s = .ok (t, evs) ∧ evs.length = ops.length ∧
      Spec.vecRun (Spec.finished ops evs) l = (l', evs.filter (fun e => !e)) ∧
      Rep k t l' ∧ Spare t ∧ Small p t ∧ Balance k s t l l' := by
  induction ops with
  | nil => intro s l h hsp hs _ _; exact ⟨s, [], l, rfl, rfl, rfl, h, hsp, hs, Balance.refl _ _ _⟩
  | cons c ops ih =>
    obtain ⟨op, avail⟩ := c
    intro s l h hsp hs hfit hops
    have hop : k = .managed → Spec.endOp op l := fun hk => hops hk (op, avail) (List.mem_cons_self ..) l
    have hrest : k = .managed → ∀ c ∈ ops, ∀ m, Spec.endOp c.1 m := fun hk q hq =>
      hops hk q (List.mem_cons_of_mem _ hq)
    have hfr : ∀ c ∈ ops, Spec.ArgFits p c.1 ∧ Spec.Possible p c.2 := fun q hq => hfit q (List.mem_cons_of_mem _ hq)
    obtain ⟨hf1, hf2⟩ := hfit (op, avail) (List.mem_cons_self ..)
    have hn := wanted_fits hp hh h hs op hf1
    have hr := run_eq hp hf2 h hs op hf1 hn
    have same : run p avail k op s = .thrown s → ∃ t evs l', runOps p k ((op, avail) :: ops) s = .ok (t, evs) ∧
        evs.length = ((op, avail) :: ops).length ∧
        Spec.vecRun (Spec.finished ((op, avail) :: ops) evs) l = (l', evs.filter (fun e => !e)) ∧
        Rep k t l' ∧ Spare t ∧ Small p t ∧ Balance k s t l l' := by
      intro hr
      obtain ⟨t, evs, l', h1, h2, h3, h4⟩ := ih h hsp hs hfr hrest
      refine ⟨t, true :: evs, l', ?_, by simp [h2], ?_, h4⟩
      · simp only [runOps, hr, h1]; rfl
      · simpa [Spec.finished] using h3
    by_cases hav : ∀ n, Spec.wanted s op = some n → avail (n * p.esz) = true
    · have hr' : run p avail k op s = op.run k s := by
        rw [hr]
        cases hw : Spec.wanted s op with
        | none => rfl
        | some n => simp only [outcome, if_pos (hav n hw)]
      have hst := step_run h hsp op hop
      cases hv : Spec.vecStep op l with
      | none => rw [hv] at hst; exact same (hr'.trans hst)
      | some l1 =>
        rw [hv] at hst
        obtain ⟨u, hu, hur, hus, hb⟩ := hst
        obtain ⟨t, evs, l', h1, h2, h3, h4, h5, h6, h7⟩ := ih hur hus (small_after hf2 h hs hav hu) hfr hrest
        refine ⟨t, false :: evs, l', ?_, by simp [h2], ?_, h4, h5, h6, ?_, ?_, ?_⟩
        · simp only [runOps, hr', hu, h1]; rfl
        · have h3' : Spec.vecRun (op :: Spec.finished ops evs) l = (l', false :: evs.filter (fun e => !e)) := by
            simp only [Spec.vecRun, hv, h3]
          simpa [Spec.finished] using h3'
        · intro hk; have := h7.objs hk; have := hb.objs hk; omega
        · rw [h7.blocks, hb.blocks]
        · intro h0
          obtain ⟨a1, a2⟩ := h7.fresh h0
          obtain ⟨b1, b2⟩ := hb.fresh a1
          exact ⟨b1, a2.trans b2⟩
    · refine same ?_
      rw [hr]
      cases hw : Spec.wanted s op with
      | none => exact absurd (fun n hn' => by rw [hw] at hn'; cases hn') hav
      | some n =>
        have : ¬ avail (n * p.esz) = true := fun h' => hav fun m hm => by
          rw [hw] at hm; cases hm; exact h'
        simp only [outcome, if_neg this]

theorem small_mk0 (p : Plat) : Small p (VecS.mk0 {} : VecS α) := by
  simp only [Small, VecS.mk0, Nat.zero_mul]
  exact Nat.two_pow_pos _

theorem reachable_rep {p : Plat} (hp : Spec.PlatOk p) (hh : p.hosted = true ∨ p.esz = 1) {k : Kind} {s : VecS α}
    (hs : Spec.LimReachable p k s) : ∃ l, Rep k s l ∧ Spare s ∧ Small p s := by
  obtain ⟨calls, threw, h1, h2, h3⟩ := hs
  obtain ⟨t, evs, l', e, _, _, hr, hsp, hsm, _⟩ :=
    runOps_run hp hh calls (VecS.rep_mk0 k {}) (VecS.spare_mk0 {}) (small_mk0 p) h1 h2
  rw [h3] at e
  cases e
  exact ⟨l', hr, hsp, hsm⟩

end Lim
end Efp
