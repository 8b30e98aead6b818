import Verif.Spec.Unwind
import Verif.PreludeManaged
import Verif.VectorLemmas2

/-! # Proofs for C127 -/

namespace Efp
namespace Prelude

variable {α β γ ω : Type}

/-- wherever the run ends, the result object satisfies `I` -/
def Keeps (I : Res β → Prop) : Out (Fr β ω) γ → Prop
  | .ok _ t => I t.res
  | .thrown t => I t.res
  | .ub _ => True

theorem Keeps.bind {I : Res β → Prop} {m : Cpp (Fr β ω) γ} {δ : Type} {g : γ → Cpp (Fr β ω) δ} {s : Fr β ω}
    (h : Keeps I (m s)) (hg : ∀ b t, I t.res → Keeps I (g b t)) : Keeps I ((do let b ← m; g b) s) := by
  cases hm : m s with
  | ok b t => rw [Cpp.bind_ok hm]; rw [hm] at h; exact hg b t h
  | thrown t => rw [Cpp.bind_thrown hm]; rw [hm] at h; exact h
  | ub u => rw [Cpp.bind_ub hm]; trivial

theorem keeps_onW {I : Res β → Prop} (m : Cpp ω γ) {s : Fr β ω} (h : I s.res) : Keeps I (onW m s) := by
  cases hm : m s.w with
  | ok b w => rw [onW_ok hm]; exact h
  | thrown w => rw [onW_thrown hm]; exact h
  | ub u => rw [onW_ub hm]; trivial

theorem keeps_forUp {I : Res β → Prop} {body : Nat → Cpp (Fr β ω) Unit} (hb : ∀ i s, I s.res → Keeps I (body i s))
    (lo n : Nat) {s : Fr β ω} (h : I s.res) : Keeps I (forUp body lo n s) := by
  induction n generalizing lo s with
  | zero => exact h
  | succ n ih => rw [forUp_succ]; exact (hb lo s h).bind (fun _ t ht => ih _ ht)

theorem keeps_forM {I : Res β → Prop} {g : γ → Cpp (Fr β ω) Unit} (hb : ∀ x s, I s.res → Keeps I (g x s))
    (l : List γ) {s : Fr β ω} (h : I s.res) : Keeps I (forM l g s) := by
  induction l generalizing s with
  | nil => exact h
  | cons x l ih => rw [List.forM_cons]; exact (hb x s h).bind (fun _ t ht => ih ht)

theorem keeps_nth {I : Res β → Prop} (i : Nat) (as : Inp α) {s : Fr β ω} (h : I s.res) :
    Keeps I ((nth i as : Cpp (Fr β ω) α) s) := by
  unfold nth
  cases as.vals[i]? with
  | some a => exact h
  | none => trivial

theorem keeps_nths {I : Res β → Prop} (i : Nat) (ass : List (Inp α)) {s : Fr β ω} (h : I s.res) :
    Keeps I ((nths i ass : Cpp (Fr β ω) (List α)) s) := by
  induction ass generalizing s with
  | nil => exact h
  | cons as ass ih =>
    exact (keeps_nth i as h).bind (fun a t ht => (ih ht).bind (fun xs t ht => ht))

/-! ### results written element by element -/

/-- a result object of fixed size, in the middle of being written -/
def Fixed (k : Kind) : Res β → Prop
  | .array s => ArrS.Rep s.n s none ∧ s.led.alloc = s.led.freed
  | .arrVec s => k = .trivial ∧ s.size ≤ s.cells.length ∧ s.led.alloc = s.led.freed
  | .vector s => k = .trivial ∧ s.ptr = .block ∧ s.size ≤ s.cells.length ∧ s.led.alloc = s.led.freed + 1

theorem Fixed.dtor {k : Kind} {r : Res β} (h : Fixed k r) : ∃ t, Res.dtor k r = .ok () t ∧ Balanced k t.led := by
  cases r with
  | array s =>
    obtain ⟨h1, h2⟩ := h
    have hd := Mem.destroy_range (k := k) s.cells [] [] s.led (fun _ => h1.alive)
    simp only [List.length_nil, List.nil_append, List.append_nil] at hd
    have e : ArrS.dtor k s = ArrS.onM (forUp (fun i => Mem.destroy k i) 0 s.cells.length) s := by
      unfold ArrS.dtor
      rw [h1.len]
    refine ⟨_, congrArg (Out.mapState Res.array) (e.trans (ArrS.onM_ok hd)), h2, fun _ => ?_⟩
    have := h1.led
    have := h1.len
    simp only [Res.led]
    omega
  | arrVec s =>
    obtain ⟨rfl, h1, h2⟩ := h
    have hd := Mem.destroy_range (k := .trivial) (s.cells.take s.size) [] (s.cells.drop s.size) s.led (by intro h; cases h)
    simp only [List.length_nil, List.nil_append, List.take_append_drop, List.length_take, Nat.min_eq_left h1] at hd
    have e : AvS.dtor .trivial s = _ := AvS.onM_ok hd
    exact ⟨_, congrArg (Out.mapState Res.arrVec) e, h2, by intro h; cases h⟩
  | vector s =>
    obtain ⟨rfl, h0, h1, h2⟩ := h
    have hd := VecS.destroyAll_block (k := .trivial) (s := s) (s.cells.take s.size) (s.cells.drop s.size) h0 (by simp) (by simp [h1])
      (by intro h; cases h)
    refine ⟨.vector { s with cells := [], ptr := .null, led := { s.led with
        gone := s.led.gone + (s.cells.take s.size).length, freed := s.led.freed + 1 } }, ?_, h2, by intro h; cases h⟩
    have e : VecS.dtor .trivial s = .ok () { s with cells := [], ptr := .null, led := { s.led with
        gone := s.led.gone + (s.cells.take s.size).length, freed := s.led.freed + 1 } } := by
      unfold VecS.dtor
      simp only [h0]
      rw [Cpp.bind_ok hd]
      simp [Cpp.bind_run, VecS.dealloc, h0]
    simp only [Res.dtor, e]; rfl

theorem Fixed.set {k : Kind} (i : Nat) (b : β) {s : Fr β ω} (h : Fixed k s.res) :
    Keeps (Fixed k) (onRes (Res.set k i b) s) := by
  obtain ⟨r, idx, w⟩ := s
  cases r with
  | array s =>
    obtain ⟨h1, h2⟩ := h
    simp only [onRes, Res.set, ArrS.setAt, ArrS.onM, Mem.assign]
    cases hc : s.cells[i]? with
    | none => trivial
    | some c =>
      simp only
      split
      · trivial
      · refine ⟨⟨rfl, by simpa using h1.len, ?_, (by intro x hx; cases hx), h1.led⟩, h2⟩
        intro c' hc'
        rcases List.mem_or_eq_of_mem_set hc' with h | rfl
        · exact h1.alive _ h
        · rfl
  | arrVec s =>
    obtain ⟨h1, h2, h3⟩ := h
    simp only [onRes, Res.set, AvS.setAt, AvS.onM, Mem.assign]
    cases hc : s.cells[i]? with
    | none => trivial
    | some c =>
      simp only
      split
      · trivial
      · exact ⟨h1, by simpa using h2, h3⟩
  | vector s =>
    obtain ⟨h0, h1, h2, h3⟩ := h
    simp only [onRes, Res.set, VecS.setAt, VecS.onMem_block h1, Mem.assign]
    cases hc : s.cells[i]? with
    | none => trivial
    | some c =>
      simp only
      split
      · trivial
      · exact ⟨h0, h1, by simpa using h2, h3⟩

theorem mk0_blocks (d : β) (lo n : Nat) {s u : ArrS β} (h : forUp (ArrS.initOne d) lo n s = .ok () u) :
    u.led.alloc = s.led.alloc ∧ u.led.freed = s.led.freed := by
  induction n generalizing lo s with
  | zero => cases h; exact ⟨rfl, rfl⟩
  | succ n ih =>
    rw [forUp_succ] at h
    by_cases hlt : lo < s.cells.length
    · have h1 : ArrS.initOne d lo s = .ok () { s with
          cells := s.cells.set lo (.live d), led := { s.led with made := s.led.made + 1 } } := by
        simp only [ArrS.initOne, ArrS.onM, Mem.construct, if_pos hlt]; rfl
      rw [Cpp.bind_ok h1] at h
      have := ih _ h
      exact this
    · have h1 : ArrS.initOne d lo s = .ub .oob := by
        simp only [ArrS.initOne, ArrS.onM, Mem.construct, if_neg hlt]; rfl
      rw [Cpp.bind_ub h1] at h
      cases h

/-- after `R res {}` and the `resize` of a dynamic result -/
theorem fixed_start {k : Kind} {t : SeqTy} {n : Nat} (h : Fits k t n) (d : β) (c : Prop) [Decidable c]
    (hc : (∀ m, t ≠ .array m) → c) :
    ∃ r, Res.make t d = .ok () r ∧ ∀ (i : Nat) (w : ω),
      Keeps (Fixed k) ((if c then onRes (Res.resize k n) else pure () : Cpp (Fr β ω) Unit) ⟨r, i, w⟩) := by
  cases t with
  | array m =>
    change m = n at h
    subst h
    obtain ⟨u, hu, hr⟩ := ArrS.mk0_run m d
    refine ⟨.array u, by simp only [Res.make, hu]; rfl, ?_⟩
    intro i w
    have e : Res.resize k m (.array u) = .ok () (.array u) := by
      have := hr.n_eq
      simp [Res.resize, ArrS.resize, Cpp.bind_run, this]
    have hF : Fixed k (.array u) := by
      refine ⟨⟨rfl, hr.len.trans hr.n_eq.symm, hr.alive, (by intro x hx; cases hx), by rw [hr.led, hr.n_eq]⟩, ?_⟩
      obtain ⟨h1, h2⟩ := mk0_blocks d 0 m hu
      exact h1.trans h2.symm
    split
    · simp only [onRes, e]; exact hF
    · exact hF
  | arrVec m =>
    obtain ⟨h1, rfl⟩ := h
    refine ⟨.arrVec (AvS.mk0 m), rfl, ?_⟩
    intro i w
    rw [if_pos (hc (by simp))]
    have e : Res.resize .trivial n (.arrVec (AvS.mk0 m : AvS β)) =
        .ok () (.arrVec { (AvS.mk0 m : AvS β) with size := n }) := by
      simp [Res.resize, AvS.resize, Cpp.bind_run, AvS.mk0, show ¬ n > m by omega]
    simp only [onRes, e]
    exact ⟨rfl, by simpa [AvS.mk0] using h1, rfl⟩
  | vector =>
    have hk : k = .trivial := h
    subst hk
    refine ⟨.vector (VecS.mk0 {}), rfl, ?_⟩
    intro i w
    rw [if_pos (hc (by simp))]
    have e : VecS.resize .trivial n (VecS.mk0 {} : VecS β) =
        .ok () { VecS.afterRealloc (VecS.mk0 {}) [] (n + 1) with size := n } := by
      unfold VecS.resize
      have := VecS.reserve_run (VecS.rep_mk0 .trivial {} : VecS.Rep .trivial (VecS.mk0 {} : VecS β) []) (n + 1)
      rw [if_pos (by simp [VecS.mk0])] at this
      rw [Cpp.bind_ok (Cpp.get_run _), if_pos (by simp [VecS.mk0]), Cpp.bind_ok this]
    simp only [onRes, Res.resize, e]
    exact ⟨rfl, rfl, by simp [VecS.afterRealloc], rfl⟩

/-! ### results that grow -/

/-- a finished object that has counted its elements and its block -/
def Grown (k : Kind) (r : Res β) : Prop :=
  (∀ m, r.ty ≠ .array m) ∧ ∃ l, Done k r l ∧ (k = .managed → r.led.made = r.led.gone + l.length) ∧
    match r with
    | .vector s => s.led.alloc = s.led.freed + VecS.hadBlock s
    | r => r.led.alloc = r.led.freed

theorem Grown.dtor {k : Kind} {r : Res β} (h : Grown k r) : ∃ t, Res.dtor k r = .ok () t ∧ Balanced k t.led := by
  obtain ⟨hna, l, hd, hl, hb⟩ := h
  cases r with
  | array s => exact absurd rfl (hna s.n)
  | arrVec s =>
    obtain ⟨t, ht, _, _, _, _, _, hled⟩ := AvS.destroyAll_run hd
    refine ⟨.arrVec t, by simp only [Res.dtor, AvS.dtor, ht]; rfl, ?_, fun hk => ?_⟩
    · simp only [Res.led, hled]; exact hb
    · have := hl hk
      simp only [Res.led, hled] at this ⊢; exact this
  | vector s =>
    obtain ⟨t, ht, hled⟩ := VecS.dtor_run hd
    refine ⟨.vector t, by simp only [Res.dtor, ht]; rfl, ?_, fun hk => ?_⟩
    · simp only [Res.led, hled]; exact hb
    · have := hl hk
      simp only [Res.led, hled] at this ⊢; exact this

theorem Grown.push {k : Kind} (b : β) {s : Fr β ω} (h : Grown k s.res) :
    Keeps (Grown k) (onRes (Res.push k b) s) := by
  obtain ⟨r, idx, w⟩ := s
  obtain ⟨hna, l, hd, hl, hb⟩ := h
  cases r with
  | array s => exact absurd rfl (hna s.n)
  | arrVec s =>
    have hd' : AvS.Rep k s.cap s l := hd
    by_cases hlt : l.length < s.cap
    · obtain ⟨t, ht, hr⟩ := AvS.pushBack_run hd' b hlt
      have hcap := hr.cap
      have hal : t.led.alloc = s.led.alloc ∧ t.led.freed = s.led.freed := by
        unfold AvS.pushBack at ht
        rw [Cpp.bind_ok (Cpp.get_run _), if_neg (by have := hd'.size; omega)] at ht
        by_cases hc : s.size < s.cells.length
        · have h1 : AvS.onM (Mem.construct s.size b) s = .ok () { s with
              cells := s.cells.set s.size (.live b), led := { s.led with made := s.led.made + 1 } } := by
            simp only [AvS.onM, Mem.construct, if_pos hc]; rfl
          rw [Cpp.bind_ok h1] at ht
          cases ht
          exact ⟨rfl, rfl⟩
        · have h1 : AvS.onM (Mem.construct s.size b) s = .ub .oob := by
            simp only [AvS.onM, Mem.construct, if_neg hc]; rfl
          rw [Cpp.bind_ub h1] at ht
          cases ht
      simp only [onRes, Res.push, ht]
      refine ⟨by simp [Res.ty], l ++ [b], ?_, hr.led, ?_⟩
      · show AvS.Rep k t.cap t (l ++ [b])
        rw [hcap]; exact hr
      · show t.led.alloc = t.led.freed
        rw [hal.1, hal.2]; exact hb
    · have e : AvS.pushBack b s = .thrown s := by
        unfold AvS.pushBack
        rw [Cpp.bind_ok (Cpp.get_run _), if_pos (by have := hd'.size; omega)]
      simp only [onRes, Res.push, e]
      exact ⟨hna, l, hd, hl, hb⟩
  | vector s =>
    obtain ⟨t, ht, hr, hp, _, _, hled⟩ := VecS.pushBack_run hd b
    simp only [onRes, Res.push, ht]
    refine ⟨by simp [Res.ty], l ++ [b], hr, fun hk => ?_, ?_⟩
    · have := hl hk
      simp only [Res.led, hled] at this ⊢
      split <;> simp <;> omega
    · show t.led.alloc = t.led.freed + VecS.hadBlock t
      have hb' : s.led.alloc = s.led.freed + VecS.hadBlock s := hb
      have h1 : VecS.hadBlock t = 1 := by simp [VecS.hadBlock, hp]
      rw [h1, hled]
      split
      · simp only; omega
      · rename_i hn
        have h2 : VecS.hadBlock s = 1 := by
          have hd' : VecS.Rep k s l := hd
          rcases hd'.2 with ⟨_, _, h3, _⟩ | ⟨h3, _⟩
          · omega
          · simp [VecS.hadBlock, h3]
        simp only; omega

/-! ### the calls -/

theorem unwinding_safe {k : Kind} {t : SeqTy} {d : β} {body : Cpp (Fr β ω) Unit} {w : ω} {spec : Out ω (List β)}
    {I : Res β → Prop} {r : Res β} (hg : Gives k t (withResult t d body w) spec) (hr : Res.make t d = .ok () r)
    (hI : ∀ r, I r → ∃ u, Res.dtor k r = .ok () u ∧ Balanced k u.led) (hk : Keeps I (body ⟨r, 0, w⟩)) :
    Safe k (unwinding k t d body w) spec := by
  unfold withResult at hg
  unfold unwinding
  rw [hr] at hg ⊢
  simp only at hg ⊢
  cases hb : body ⟨r, 0, w⟩ with
  | ok b s =>
    rw [hb] at hg hk
    cases spec with
    | ok bs w' =>
      obtain ⟨q, h1, h2, -⟩ := hg
      cases h1
      exact ⟨_, rfl, h2.contents, hI _ hk⟩
    | thrown w' => cases hg
    | ub u => cases hg
  | thrown s =>
    rw [hb] at hg hk
    obtain ⟨u, hu, hbal⟩ := hI _ hk
    simp only [hu]
    cases spec with
    | ok bs w' => obtain ⟨q, h1, -⟩ := hg; cases h1
    | thrown w' => cases hg; exact ⟨_, rfl, hbal⟩
    | ub u => cases hg
  | ub u =>
    rw [hb] at hg
    cases spec with
    | ok bs w' => obtain ⟨q, h1, -⟩ := hg; cases h1
    | thrown w' => cases hg
    | ub u' => cases hg; rfl

/-- a conditional `resize` followed by a loop that assigns -/
theorem written_safe {k : Kind} {t : SeqTy} {n : Nat} (hfit : Fits k t n) (d : β) (c : Prop) [Decidable c]
    (hc : (∀ m, t ≠ .array m) → c) {body loop : Cpp (Fr β ω) Unit} (hbody : body = (do
        if c then onRes (Res.resize k n)
        loop)) (hl : ∀ s, Fixed k s.res → Keeps (Fixed k) (loop s)) {w : ω} {spec : Out ω (List β)}
    (hg : Gives k t (withResult t d body w) spec) : Safe k (unwinding k t d body w) spec := by
  obtain ⟨r, hr, hs⟩ := fixed_start (ω := ω) hfit d c hc
  refine unwinding_safe hg hr (fun r h => Fixed.dtor h) ?_
  have hs := hs 0 w
  rw [hbody]
  by_cases hcc : c
  · simp only [if_pos hcc] at hs ⊢
    exact hs.bind (fun _ t ht => hl t ht)
  · simp only [if_neg hcc] at hs ⊢
    exact hl _ hs

theorem keeps_emit {k : Kind} (b : β) {s : Fr β ω} (h : Fixed k s.res) : Keeps (Fixed k) (emit k b s) := by
  unfold emit
  exact (Fixed.set _ b h).bind (fun _ t ht => ht)

theorem mapU_safe {k : Kind} (d : β) (f : List α → Cpp ω β) {ass : List (Inp α)} (hne : ass ≠ [])
    (hv : ∀ as ∈ ass, as.valid) (hk : k = .trivial ∨ ∀ as ∈ ass, as.ty.isStaticSize = true) (w : ω) :
    Safe k (mapU k d f ass w) ((rows (ass.map Inp.vals)).mapM f w) := by
  refine written_safe (naryTy_fits hne hv hk) d _ (fun h => dyn_of_not_array h) rfl (fun s hs => ?_)
    (map_gives d f hne hv hk w)
  refine keeps_forUp (fun i s hs => ?_) _ _ hs
  exact (keeps_nths i ass hs).bind (fun xs t ht => (keeps_onW _ ht).bind (fun b t ht => Fixed.set i b ht))

theorem mapWithIndexU_safe {k : Kind} (d : β) (f : Nat → List α → Cpp ω β) {ass : List (Inp α)} (hne : ass ≠ [])
    (hv : ∀ as ∈ ass, as.valid) (hk : k = .trivial ∨ ∀ as ∈ ass, as.ty.isStaticSize = true) (w : ω) :
    Safe k (mapWithIndexU k d f ass w)
      ((List.range (shortest (ass.map Inp.vals))).mapM (fun i => f i (row i (ass.map Inp.vals))) w) := by
  refine written_safe (naryTy_fits hne hv hk) d _ (fun h => dyn_of_not_array h) rfl (fun s hs => ?_)
    (mapWithIndex_gives d f hne hv hk w)
  refine keeps_forUp (fun i s hs => ?_) _ _ hs
  exact (keeps_nths i ass hs).bind (fun xs t ht => (keeps_onW _ ht).bind (fun b t ht => Fixed.set i b ht))

theorem cartesianMapU_safe {k : Kind} (d : β) (f : List α → Cpp ω β) {ass : List (Inp α)} (hne : ass ≠ [])
    (hv : ∀ as ∈ ass, as.valid) (hk : k = .trivial ∨ ∀ as ∈ ass, as.ty.isStaticSize = true) (w : ω) :
    Safe k (cartesianMapU k d f ass w) ((combos (ass.map Inp.vals)).mapM f w) := by
  refine written_safe (cartesianTy_fits hv hk) d _ (fun h => dyn_of_not_array h) rfl (fun s hs => ?_)
    (cartesianMap_gives d f hne hv hk w)
  rw [cartesianForEach_eq _ hne hv]
  refine keeps_forM (fun x s hs => ?_) _ hs
  exact (keeps_onW _ hs).bind (fun b t ht => keeps_emit b ht)

theorem fromFunctionU_safe {k : Kind} (d : β) (n : NArg) (f : Nat → Cpp ω β)
    (hk : k = .trivial ∨ ∃ m, n = .ct m) (w : ω) :
    Safe k (fromFunctionU k d n f w) ((List.range n.val).mapM f w) := by
  refine written_safe (n := n.val) ?_ d _ ?_ rfl (fun s hs => ?_) (fromFunction_gives d n f hk w)
  · cases n with
    | rt n => rcases hk with hk | ⟨m, hm⟩
              · exact hk
              · cases hm
    | ct n => rfl
  · cases n with
    | rt n => intro _; rfl
    | ct n => intro h; exact absurd rfl (h n)
  · refine keeps_forUp (fun i s hs => ?_) _ _ hs
    exact (keeps_onW _ hs).bind (fun b t ht => Fixed.set i b ht)

theorem grown_start (k : Kind) {t : SeqTy} (ht : ∀ m, t ≠ .array m) (d : β) :
    ∃ r, Res.make t d = .ok () r ∧ Grown k r := by
  cases t with
  | array m => exact absurd rfl (ht m)
  | arrVec m => exact ⟨_, rfl, by simp [Res.ty], [], AvS.rep_mk0 k m, fun _ => rfl, rfl⟩
  | vector => exact ⟨_, rfl, by simp [Res.ty], [], VecS.rep_mk0 k {}, fun _ => rfl, rfl⟩

theorem filterU_safe {k : Kind} {as : Inp α} (hv : as.valid) (d : α) (p : α → Cpp ω Bool) (w : ω) :
    Safe k (filterU k d p as w) (filterCalls p as.vals w) := by
  obtain ⟨r, hr, hg⟩ := grown_start k (filterTy_ok hv).1 d
  refine unwinding_safe (filter_gives hv d p w) hr (fun r h => Grown.dtor h) ?_
  refine keeps_forUp (fun i s hs => ?_) _ _ hg
  refine (keeps_nth i as hs).bind (fun a t ht => (keeps_onW _ ht).bind (fun b t ht => ?_))
  cases b
  · exact ht
  · exact Grown.push _ ht

theorem findIndicesU_safe {as : Inp α} (hv : as.valid) (p : α → Cpp ω Bool) (w : ω) :
    Safe .trivial (findIndicesU p as w)
      ((do let r ← filterCalls (fun q : α × Nat => p q.1) as.vals.zipIdx; pure (r.map Prod.snd)) w) := by
  obtain ⟨r, hr, hg⟩ := grown_start .trivial (filterTy_ok hv).1 0
  refine unwinding_safe (findIndices_gives hv p w) hr (fun r h => Grown.dtor h) ?_
  refine keeps_forUp (fun i s hs => ?_) _ _ hg
  refine (keeps_nth i as hs).bind (fun a t ht => (keeps_onW _ ht).bind (fun b t ht => ?_))
  cases b
  · exact ht
  · exact Grown.push _ ht

/-! ### resource-owning results of dynamic size -/

/-- the destructor of a non-empty object that `resize` made -/
theorem resize_dead {t : SeqTy} {n : Nat} (hn : 0 < n) (hna : ∀ m, t ≠ .array m) (hh : Holds t n) (d : β) :
    ∃ r r', Res.make t d = .ok () r ∧ Res.resize .managed n r = .ok () r' ∧
      Res.dtor .managed r' = .ub .deadDestroy := by
  obtain ⟨k, rfl⟩ : ∃ k, n = k + 1 := ⟨n - 1, by omega⟩
  cases t with
  | array m => exact absurd rfl (hna m)
  | arrVec m =>
    have h1 : k + 1 ≤ m := hh
    obtain ⟨j, rfl⟩ : ∃ j, m = j + 1 := ⟨m - 1, by omega⟩
    refine ⟨.arrVec (AvS.mk0 (j + 1)), .arrVec { (AvS.mk0 (j + 1) : AvS β) with size := k + 1 }, rfl, ?_, ?_⟩
    · simp [Res.resize, AvS.resize, Cpp.bind_run, AvS.mk0, show ¬ j < k by omega]
    · simp [Res.dtor, AvS.dtor, AvS.destroyAll, AvS.onM, Mem.destroy, AvS.mk0, List.replicate_succ, forUp_succ]
  | vector =>
    refine ⟨.vector (VecS.mk0 {}), .vector { VecS.afterRealloc (VecS.mk0 {}) [] (k + 1 + 1) with size := k + 1 },
      rfl, ?_, ?_⟩
    · have e : VecS.resize .managed (k + 1) (VecS.mk0 {} : VecS β) =
          .ok () { VecS.afterRealloc (VecS.mk0 {}) [] (k + 1 + 1) with size := k + 1 } := by
        unfold VecS.resize
        have := VecS.reserve_run (VecS.rep_mk0 .managed {} : VecS.Rep .managed (VecS.mk0 {} : VecS β) []) (k + 1 + 1)
        rw [if_pos (by simp [VecS.mk0])] at this
        rw [Cpp.bind_ok (Cpp.get_run _), if_pos (by simp [VecS.mk0]), Cpp.bind_ok this]
      simp only [Res.resize, e]; rfl
    · simp [Res.dtor, VecS.dtor, VecS.destroyAll, VecS.onMem, Mem.destroy, VecS.afterRealloc, List.replicate_succ,
        forUp_succ, Cpp.bind_run]

theorem mapU_dead {d : β} {f : List α → Cpp ω β} {ass : List (Inp α)} (hne : ass ≠ [])
    (hv : ∀ as ∈ ass, as.valid) (hdyn : ∃ as ∈ ass, as.ty.isStaticSize = false)
    (hpos : 0 < shortest (ass.map Inp.vals)) {w w' : ω} (hf : f (row 0 (ass.map Inp.vals)) w = .thrown w') :
    mapU .managed d f ass w = .undefined .deadDestroy := by
  rw [← minLength_eq hne hv] at hpos
  have hna := naryTy_not_array (ts := ass.map Inp.ty) (by
    obtain ⟨as, h1, h2⟩ := hdyn; exact ⟨as.ty, List.mem_map.mpr ⟨as, h1, rfl⟩, h2⟩)
  obtain ⟨r, r', h1, h2, h3⟩ := resize_dead hpos hna (naryTy_holds hne hv) d
  have e1 : onRes (Res.resize .managed (minLength ass)) (⟨r, 0, w⟩ : Fr β ω) = .ok () ⟨r', 0, w⟩ := by
    simp only [onRes, h2]; rfl
  have e2 : mapBody .managed f ass 0 (⟨r', 0, w⟩ : Fr β ω) = .thrown ⟨r', 0, w'⟩ := by
    unfold mapBody
    rw [nths_ok (fun as ha => by have := minLength_le as ha; omega), pure_bind,
      Cpp.bind_thrown (onW_thrown (s := ⟨r', 0, w⟩) hf)]
  have e3 : mapProg .managed f ass (⟨r, 0, w⟩ : Fr β ω) = .thrown ⟨r', 0, w'⟩ := by
    unfold mapProg
    simp only [if_pos (dyn_of_not_array hna)]
    rw [Cpp.bind_ok e1]
    obtain ⟨k, hk⟩ : ∃ k, minLength ass = k + 1 := ⟨minLength ass - 1, by omega⟩
    rw [hk, forUp_succ, Cpp.bind_thrown e2]
  unfold mapU unwinding
  rw [h1]
  simp only [e3, h3]

theorem fromFunctionU_dead {d : β} {f : Nat → Cpp ω β} {n : Nat} (hpos : 0 < n) {w w' : ω} (hf : f 0 w = .thrown w') :
    fromFunctionU .managed d (.rt n) f w = .undefined .deadDestroy := by
  obtain ⟨r, r', h1, h2, h3⟩ := resize_dead (t := .vector) hpos (by simp) trivial d
  have e1 : onRes (Res.resize .managed n) (⟨r, 0, w⟩ : Fr β ω) = .ok () ⟨r', 0, w⟩ := by
    simp only [onRes, h2]; rfl
  have e2 : fromFunctionBody .managed f 0 (⟨r', 0, w⟩ : Fr β ω) = .thrown ⟨r', 0, w'⟩ := by
    unfold fromFunctionBody
    rw [Cpp.bind_thrown (onW_thrown (s := ⟨r', 0, w⟩) hf)]
  have e3 : fromFunctionProg .managed (.rt n) f (⟨r, 0, w⟩ : Fr β ω) = .thrown ⟨r', 0, w'⟩ := by
    unfold fromFunctionProg
    simp only [if_pos (show (fromFunctionTy (.rt n)).isStaticSize = false from rfl)]
    rw [Cpp.bind_ok (show onRes (Res.resize .managed (NArg.rt n).val) _ = _ from e1)]
    change forUp _ 0 n _ = _
    obtain ⟨k, rfl⟩ : ∃ k, n = k + 1 := ⟨n - 1, by omega⟩
    rw [forUp_succ, Cpp.bind_thrown e2]
  unfold fromFunctionU unwinding
  have h1' : Res.make (fromFunctionTy (.rt n)) d = .ok () r := h1
  rw [h1']
  simp only [e3, h3]

end Prelude
end Efp
