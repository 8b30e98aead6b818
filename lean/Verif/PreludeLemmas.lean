import Verif.Spec.Prelude
import Verif.ArrayLemmas
import Verif.ArrVecWorld
import Verif.VectorLemmas2

/-! Helper lemmas for the list functions. -/

namespace Efp

instance (σ : Type) : LawfulMonad (Cpp σ) := LawfulMonad.mk'
  (id_map := by
    intro γ x
    funext s
    show (match x s with | .ok b s' => Out.ok (id b) s' | .thrown s' => .thrown s' | .ub w => .ub w) = x s
    cases x s <;> rfl)
  (pure_bind := by intros; rfl)
  (bind_assoc := by
    intro γ δ ε x f g
    funext s
    simp only [Cpp.bind_run]
    cases x s <;> rfl)

namespace Prelude

variable {α β γ σ ω : Type}

/-! ### loops and rows -/

theorem forUp_eq_forM {body g : Nat → Cpp σ Unit} (lo n : Nat)
    (h : ∀ i, lo ≤ i → i < lo + n → body i = g i) :
    forUp body lo n = forM (List.range' lo n) g := by
  induction n generalizing lo with
  | zero => rfl
  | succ n ih =>
    rw [forUp_succ, h lo (Nat.le_refl _) (by omega), ih (lo + 1) (fun i h1 h2 => h i (by omega) (by omega)),
      List.range'_succ, List.forM_cons]

theorem forM_map {δ : Type} (l : List γ) (f : γ → δ) (g : δ → Cpp σ Unit) :
    forM (l.map f) g = forM l (fun x => g (f x)) := by
  induction l with
  | nil => rfl
  | cons x l ih => rw [List.map_cons, List.forM_cons, List.forM_cons, ih]

theorem forM_append (l m : List γ) (g : γ → Cpp σ Unit) :
    forM (l ++ m) g = (do forM l g; forM m g) := by
  induction l with
  | nil => rfl
  | cons x l ih => rw [List.cons_append, List.forM_cons, List.forM_cons, ih, bind_assoc]

theorem nth_ok {i : Nat} {as : Inp α} {a : α} (h : as.vals[i]? = some a) :
    (nth i as : Cpp σ α) = pure a := by
  unfold nth; rw [h]

theorem nths_ok {i : Nat} {ass : List (Inp α)} (h : ∀ as ∈ ass, i < as.vals.length) :
    (nths i ass : Cpp σ (List α)) = pure (row i (ass.map Inp.vals)) := by
  induction ass with
  | nil => rfl
  | cons as ass ih =>
    have h1 : as.vals[i]? = some (as.vals[i]'(h as (by simp))) := List.getElem?_eq_getElem _
    simp only [nths]
    rw [nth_ok h1, pure_bind, ih (fun a ha => h a (by simp [ha])), pure_bind]
    simp [row, h1]

theorem foldl_min_le (l : List Nat) (a : Nat) : l.foldl min a ≤ a := by
  induction l generalizing a with
  | nil => simp
  | cons x l ih => simp only [List.foldl_cons]; have := ih (min a x); omega

theorem foldl_min_le_mem (l : List Nat) (a : Nat) : ∀ x ∈ l, l.foldl min a ≤ x := by
  induction l generalizing a with
  | nil => simp
  | cons y l ih =>
    intro x hx
    simp only [List.foldl_cons]
    rcases List.mem_cons.mp hx with rfl | hx
    · have := foldl_min_le l (min a x); omega
    · exact ih _ x hx

theorem foldl_min_mem (l : List Nat) (a : Nat) : l.foldl min a = a ∨ l.foldl min a ∈ l := by
  induction l generalizing a with
  | nil => simp
  | cons y l ih =>
    simp only [List.foldl_cons]
    rcases ih (min a y) with h | h
    · by_cases hy : a ≤ y
      · left; omega
      · right; rw [h, show min a y = y by omega]; simp
    · right; simp [h]

theorem minimum_mem {l : List Nat} (hne : l ≠ []) (h : ∀ x ∈ l, x ≤ dyn) : minimum l ∈ l := by
  rcases foldl_min_mem l dyn with h1 | h1
  · cases l with
    | nil => exact absurd rfl hne
    | cons x l =>
      have h2 := foldl_min_le_mem (x :: l) dyn x (by simp)
      have h3 := h x (by simp)
      unfold minimum
      rw [h1] at h2 ⊢
      have : dyn = x := by omega
      rw [this]; simp
  · exact h1

theorem shortest_le (ls : List (List α)) : ∀ l ∈ ls, shortest ls ≤ l.length := by
  intro l hl
  induction ls with
  | nil => simp at hl
  | cons m ls ih =>
    cases ls with
    | nil => simp at hl; subst hl; simp [shortest]
    | cons k ls =>
      simp only [shortest]
      rcases List.mem_cons.mp hl with rfl | h
      · omega
      · have := ih h; omega

theorem shortest_mem {ls : List (List α)} (hne : ls ≠ []) : shortest ls ∈ ls.map List.length := by
  induction ls with
  | nil => exact absurd rfl hne
  | cons m ls ih =>
    cases ls with
    | nil => simp [shortest]
    | cons k ls =>
      have := ih (by simp)
      simp only [shortest]
      by_cases h : m.length ≤ shortest (k :: ls)
      · rw [show min m.length (shortest (k :: ls)) = m.length by omega]; simp
      · rw [show min m.length (shortest (k :: ls)) = shortest (k :: ls) by omega]
        exact List.mem_cons_of_mem _ this

theorem Inp.valid.lt {as : Inp α} (h : as.valid) : as.vals.length < dyn := by
  obtain ⟨h, _⟩ := h
  revert h
  cases as.ty <;> simp only <;> omega

theorem minLength_eq {ass : List (Inp α)} (hne : ass ≠ []) (hv : ∀ as ∈ ass, as.valid) :
    minLength ass = shortest (ass.map Inp.vals) := by
  have h1 : minLength ass ∈ ass.map length := by
    refine minimum_mem (by simpa using hne) ?_
    intro x hx
    obtain ⟨as, ha, rfl⟩ := List.mem_map.mp hx
    have := (hv as ha).lt
    unfold length; omega
  have h2 : shortest (ass.map Inp.vals) ∈ ass.map length := by
    have := shortest_mem (ls := ass.map Inp.vals) (by simpa using hne)
    simpa [length] using this
  have h3 : minLength ass ≤ shortest (ass.map Inp.vals) := foldl_min_le_mem _ _ _ h2
  have h4 : shortest (ass.map Inp.vals) ≤ minLength ass := by
    obtain ⟨as, ha, he⟩ := List.mem_map.mp h1
    have := shortest_le (ass.map Inp.vals) as.vals (List.mem_map.mpr ⟨as, ha, rfl⟩)
    rw [← he]; exact this
  omega

theorem minLength_le {ass : List (Inp α)} : ∀ as ∈ ass, minLength ass ≤ as.vals.length := by
  intro as ha
  exact foldl_min_le_mem _ _ _ (List.mem_map.mpr ⟨as, ha, rfl⟩)

theorem rows_eq {ass : List (Inp α)} (hne : ass ≠ []) (hv : ∀ as ∈ ass, as.valid) :
    rows (ass.map Inp.vals) = (List.range' 0 (minLength ass)).map (fun i => row i (ass.map Inp.vals)) := by
  rw [minLength_eq hne hv, rows, List.range_eq_range']

/-! ### result objects -/

/-- block contents while the first `n` slots are being filled: `bs` written so far -/
def Slots (k : Kind) (n : Nat) (cells : List (Cell β)) (bs : List β) : Prop :=
  ∃ rest post, cells = bs.map .live ++ (rest ++ post) ∧ bs.length + rest.length = n ∧
    (k = .managed → ∀ c ∈ rest, c.alive = true)

/-- a result object of `n` elements of which `bs` have been written -/
def Filling (k : Kind) (n : Nat) : Res β → List β → Prop
  | .array s, bs => s.n = n ∧ s.led.made = s.led.gone + n ∧ s.cells.length = n ∧ Slots k n s.cells bs
  | .arrVec s, bs => s.size = n ∧ s.cap = s.cells.length ∧ k = .trivial ∧ Slots k n s.cells bs
  | .vector s, bs =>
    s.ptr = .block ∧ s.size = n ∧ s.cap = s.cells.length ∧ k = .trivial ∧ Slots k n s.cells bs

theorem Slots.split {k : Kind} {n : Nat} {cells : List (Cell β)} {bs : List β} (h : Slots k n cells bs)
    (hlt : bs.length < n) (b : β) : ∃ c post, cells = bs.map .live ++ c :: post ∧
      (k = .managed → c.alive = true) ∧ Slots k n (bs.map .live ++ .live b :: post) (bs ++ [b]) := by
  obtain ⟨rest, post, hc, hn, ha⟩ := h
  cases rest with
  | nil => simp at hn; omega
  | cons c rest =>
    refine ⟨c, rest ++ post, by simpa using hc, fun hk => ha hk c (by simp),
      rest, post, by simp, by simp at hn ⊢; omega, fun hk d hd => ha hk d (by simp [hd])⟩

theorem Filling.set {k : Kind} {n : Nat} {r : Res β} {bs : List β} (h : Filling k n r bs)
    (hlt : bs.length < n) (b : β) :
    ∃ r', Res.set k bs.length b r = .ok () r' ∧ Filling k n r' (bs ++ [b]) ∧ r'.ty = r.ty := by
  cases r with
  | array s =>
    obtain ⟨h1, h2, h3, h4⟩ := h
    obtain ⟨c, post, hc, ha, hs⟩ := h4.split hlt b
    have e : ArrS.setAt k bs.length b s = .ok () { s with cells := bs.map .live ++ .live b :: post } := by
      refine ArrS.onM_ok ?_
      rw [ArrS.toMem_eq hc, Mem.assign_mid (by simp) ha]
    refine ⟨.array { s with cells := bs.map .live ++ .live b :: post }, by simp only [Res.set, e]; rfl, ⟨h1, h2, ?_, hs⟩, rfl⟩
    rw [hc] at h3; simpa using h3
  | arrVec s =>
    obtain ⟨h1, h2, h3, h4⟩ := h
    obtain ⟨c, post, hc, ha, hs⟩ := h4.split hlt b
    have e : AvS.setAt k bs.length b s = .ok () { s with cells := bs.map .live ++ .live b :: post } := by
      refine AvS.onM_ok ?_
      rw [AvS.toMem_eq hc, Mem.assign_mid (by simp) ha]
    refine ⟨.arrVec { s with cells := bs.map .live ++ .live b :: post }, by simp only [Res.set, e]; rfl, ⟨h1, ?_, h3, hs⟩, rfl⟩
    rw [hc] at h2; simpa using h2
  | vector s =>
    obtain ⟨h0, h1, h2, h3, h4⟩ := h
    obtain ⟨c, post, hc, ha, hs⟩ := h4.split hlt b
    have e : VecS.setAt k bs.length b s = .ok () { s with cells := bs.map .live ++ .live b :: post } := by
      refine VecS.onMem_ok h0 ?_
      rw [VecS.toMem_eq hc, Mem.assign_mid (by simp) ha]
    refine ⟨.vector { s with cells := bs.map .live ++ .live b :: post }, by simp only [Res.set, e]; rfl, ⟨h0, h1, ?_, h3, hs⟩, rfl⟩
    rw [hc] at h2; simpa using h2

/-- a finished result object -/
def Done (k : Kind) : Res β → List β → Prop
  | .array s, bs => ArrS.Rep bs.length s (some bs)
  | .arrVec s, bs => AvS.Rep k s.cap s bs
  | .vector s, bs => VecS.Rep k s bs

theorem Done.contents {k : Kind} {r : Res β} {bs : List β} (h : Done k r bs) : r.contents = .ok bs := by
  cases r with
  | array s => exact ArrS.Rep.contents h
  | arrVec s => exact AvS.Rep.contents h
  | vector s => exact VecS.Rep.contents h

theorem Filling.done {k : Kind} {n : Nat} {r : Res β} {bs : List β} (h : Filling k n r bs)
    (hn : bs.length = n) : Done k r bs := by
  cases r with
  | array s =>
    obtain ⟨h1, h2, h3, rest, post, hc, hl, _⟩ := h
    have hr : rest = [] := List.length_eq_zero_iff.mp (by omega)
    subst hr
    have hp : post = [] := List.length_eq_zero_iff.mp (by rw [hc] at h3; simp at h3; omega)
    subst hp
    exact ArrS.rep_live (h1.trans hn.symm) (by simpa using hc) rfl (by rw [hn]; exact h2)
  | arrVec s =>
    obtain ⟨h1, h2, h3, rest, post, hc, hl, _⟩ := h
    subst h3
    exact ⟨by omega, rfl, ⟨rest ++ post, hc, by rw [← hc, h2], by intro h; cases h⟩, by intro h; cases h⟩
  | vector s =>
    obtain ⟨h0, h1, h2, h3, rest, post, hc, hl, _⟩ := h
    subst h3
    exact VecS.rep_block h0 (by omega) h2 hc (by intro h; cases h)

/-- result types for which element-wise assignment into a freshly resized object is well defined -/
def Fits (k : Kind) (t : SeqTy) (n : Nat) : Prop :=
  match t with
  | .array m => m = n
  | .arrVec m => n ≤ m ∧ k = .trivial
  | .vector => k = .trivial

theorem prepare {k : Kind} {t : SeqTy} {n : Nat} (h : Fits k t n) (d : β) (c : Prop) [Decidable c]
    (hc : (∀ m, t ≠ .array m) → c) :
    ∃ r r', Res.make t d = .ok () r ∧ Filling k n r' [] ∧ r'.ty = t ∧
      ∀ (i : Nat) (w : ω),
        (if c then onRes (Res.resize k n) else pure () : Cpp (Fr β ω) Unit) ⟨r, i, w⟩ = .ok () ⟨r', i, w⟩ := by
  cases t with
  | array m =>
    change m = n at h
    subst h
    obtain ⟨u, hu, hr⟩ := ArrS.mk0_run m d
    refine ⟨.array u, .array u, by simp only [Res.make, hu]; rfl, ?_, by simp [Res.ty, hr.n_eq], ?_⟩
    · refine ⟨hr.n_eq, hr.led, hr.len, u.cells, [], by simp, by simp [hr.len], fun _ => hr.alive⟩
    · intro i w
      have e : Res.resize k m (.array u) = .ok () (.array u) := by
        have := hr.n_eq
        simp [Res.resize, ArrS.resize, Cpp.bind_run, this]
      split
      · simp only [onRes, e]; rfl
      · rfl
  | arrVec m =>
    obtain ⟨h1, rfl⟩ := h
    refine ⟨.arrVec (AvS.mk0 m), .arrVec { (AvS.mk0 m : AvS β) with size := n }, rfl, ?_, rfl, ?_⟩
    · refine ⟨rfl, by simp [AvS.mk0], rfl, List.replicate n .raw, List.replicate (m - n) .raw, ?_, by simp,
        by intro h; cases h⟩
      simp [AvS.mk0, h1]
    · intro i w
      rw [if_pos (hc (by simp))]
      have e : Res.resize .trivial n (.arrVec (AvS.mk0 m : AvS β)) =
          .ok () (.arrVec { (AvS.mk0 m : AvS β) with size := n }) := by
        simp [Res.resize, AvS.resize, Cpp.bind_run, AvS.mk0, show ¬ n > m by omega]
      simp only [onRes, e]; rfl
  | vector =>
    have hk : k = .trivial := h
    subst hk
    refine ⟨.vector (VecS.mk0 {}), .vector { VecS.afterRealloc (VecS.mk0 {}) [] (n + 1) with size := n },
      rfl, ?_, rfl, ?_⟩
    · refine ⟨rfl, rfl, by simp [VecS.afterRealloc], rfl, List.replicate n .raw, [.raw], ?_, by simp,
        by intro h; cases h⟩
      simp [VecS.afterRealloc, List.replicate_succ']
    · intro i w
      rw [if_pos (hc (by simp))]
      have e : VecS.resize .trivial n (VecS.mk0 {} : VecS β) =
          .ok () { VecS.afterRealloc (VecS.mk0 {}) [] (n + 1) with size := n } := by
        unfold VecS.resize
        have := VecS.reserve_run (VecS.rep_mk0 .trivial {} : VecS.Rep .trivial (VecS.mk0 {} : VecS β) []) (n + 1)
        rw [if_pos (by simp [VecS.mk0])] at this
        rw [Cpp.bind_ok (Cpp.get_run _), if_pos (by simp [VecS.mk0]), Cpp.bind_ok this]
      simp only [onRes, Res.resize, e]; rfl

/-! ### simulation of the specification -/

/-- the body run `o` follows the specification run `spec`, ending in a state described by `P` -/
def Sim (P : List β → Fr β ω → Prop) (o : Out (Fr β ω) Unit) (spec : Out ω (List β)) : Prop :=
  match spec with
  | .ok cs w => ∃ s, o = .ok () s ∧ s.w = w ∧ P cs s
  | .thrown w => ∃ s, o = .thrown s ∧ s.w = w
  | .ub u => o = .ub u

theorem Sim.mono {P Q : List β → Fr β ω → Prop} {o : Out (Fr β ω) Unit} {spec : Out ω (List β)}
    (h : Sim P o spec) (hpq : ∀ cs s, P cs s → Q cs s) : Sim Q o spec := by
  cases spec with
  | ok cs w => obtain ⟨s, h1, h2, h3⟩ := h; exact ⟨s, h1, h2, hpq _ _ h3⟩
  | thrown w => exact h
  | ub u => exact h

theorem Sim.bind {P : List β → Fr β ω → Prop} {Q : List β → List β → Fr β ω → Prop}
    {m₁ m₂ : Cpp (Fr β ω) Unit} {sp₁ sp₂ : Cpp ω (List β)} {s : Fr β ω}
    (h₁ : Sim P (m₁ s) (sp₁ s.w)) (h₂ : ∀ cs t, P cs t → Sim (Q cs) (m₂ t) (sp₂ t.w)) :
    Sim (fun es t => ∃ cs ds, es = cs ++ ds ∧ Q cs ds t) ((do m₁; m₂) s)
      ((do let cs ← sp₁; let ds ← sp₂; pure (cs ++ ds)) s.w) := by
  cases hs : sp₁ s.w with
  | ok cs w =>
    rw [hs] at h₁
    obtain ⟨t, ht, hw, hP⟩ := h₁
    rw [Cpp.bind_ok ht, Cpp.bind_ok hs]
    have h := h₂ cs t hP
    rw [← hw]
    cases hs2 : sp₂ t.w with
    | ok ds w2 =>
      rw [hs2] at h
      obtain ⟨u, hu, hw2, hQ⟩ := h
      rw [Cpp.bind_ok hs2]
      exact ⟨u, hu, hw2, cs, ds, rfl, hQ⟩
    | thrown w2 =>
      rw [hs2] at h
      rw [Cpp.bind_thrown hs2]; exact h
    | ub u =>
      rw [hs2] at h
      rw [Cpp.bind_ub hs2]; exact h
  | thrown w =>
    rw [hs] at h₁
    obtain ⟨t, ht, hw⟩ := h₁
    rw [Cpp.bind_thrown ht, Cpp.bind_thrown hs]
    exact ⟨t, rfl, hw⟩
  | ub u =>
    rw [hs] at h₁
    have ht : m₁ s = .ub u := h₁
    rw [Cpp.bind_ub ht, Cpp.bind_ub hs]
    exact rfl

theorem onW_ok {m : Cpp ω γ} {s : Fr β ω} {b : γ} {w : ω} (h : m s.w = .ok b w) :
    onW m s = .ok b { s with w := w } := by unfold onW; rw [h]; rfl
theorem onW_thrown {m : Cpp ω γ} {s : Fr β ω} {w : ω} (h : m s.w = .thrown w) :
    onW m s = .thrown { s with w := w } := by unfold onW; rw [h]; rfl
theorem onW_ub {m : Cpp ω γ} {s : Fr β ω} {u : UB} (h : m s.w = .ub u) :
    onW m s = .ub u := by unfold onW; rw [h]; rfl

/-- one call of client code followed by a step that stores its result -/
theorem Sim.call {P : List β → Fr β ω → Prop} {g : Cpp ω β} {m : β → Cpp (Fr β ω) Unit} {s : Fr β ω}
    (h : ∀ b w, ∃ t, m b { s with w := w } = .ok () t ∧ t.w = w ∧ P [b] t) :
    Sim P ((do let b ← onW g; m b) s) ((do let b ← g; pure [b]) s.w) := by
  cases hs : g s.w with
  | ok b w =>
    rw [Cpp.bind_ok hs, Cpp.bind_ok (onW_ok hs)]
    exact h b w
  | thrown w =>
    rw [Cpp.bind_thrown hs, Cpp.bind_thrown (onW_thrown hs)]
    exact ⟨_, rfl, rfl⟩
  | ub u =>
    rw [Cpp.bind_ub hs, Cpp.bind_ub (onW_ub hs)]
    exact rfl

theorem mapM_cons_append (x : γ) (l : List γ) (g : γ → Cpp ω β) :
    (x :: l).mapM g = (do let cs ← (do let b ← g x; pure [b]); let ds ← l.mapM g; pure (cs ++ ds)) := by
  rw [List.mapM_cons]
  simp

theorem fillLoop {k : Kind} {t : SeqTy} {body : Nat → Cpp (Fr β ω) Unit} {g : Nat → Cpp ω β} (m lo : Nat)
    (hb : ∀ i, lo ≤ i → i < lo + m → body i = (do let b ← onW (g i); onRes (Res.set k i b)))
    (s : Fr β ω) (bs : List β) (hf : Filling k (lo + m) s.res bs) (ht : s.res.ty = t) (hl : bs.length = lo) :
    Sim (fun cs s' => Filling k (lo + m) s'.res (bs ++ cs) ∧ s'.res.ty = t ∧ cs.length = m)
      (forUp body lo m s) ((List.range' lo m).mapM g s.w) := by
  induction m generalizing lo s bs with
  | zero => exact ⟨s, rfl, rfl, by simpa using hf, ht, rfl⟩
  | succ m ih =>
    rw [forUp_succ, hb lo (Nat.le_refl _) (by omega), List.range'_succ, mapM_cons_append]
    refine Sim.mono (Sim.bind (P := fun cs s' => cs.length = 1 ∧ Filling k (lo + (m + 1)) s'.res (bs ++ cs) ∧ s'.res.ty = t)
      (Q := fun cs ds s' => cs.length = 1 ∧ Filling k (lo + (m + 1)) s'.res ((bs ++ cs) ++ ds) ∧ s'.res.ty = t ∧ ds.length = m)
      ?_ ?_) ?_
    · refine Sim.call (fun b w => ?_)
      obtain ⟨r', hr, hf', ht'⟩ := hf.set (by omega) b
      refine ⟨{ s with res := r', w := w }, ?_, rfl, rfl, hf', ht'.trans ht⟩
      rw [hl] at hr
      simp only [onRes, hr]; rfl
    · rintro cs u ⟨h1, h2, h3⟩
      have := ih (lo + 1) (fun i h4 h5 => hb i (by omega) (by omega)) u (bs ++ cs)
        (by rw [show lo + 1 + m = lo + (m + 1) by omega]; exact h2) h3 (by simp [hl, h1])
      rw [show lo + 1 + m = lo + (m + 1) by omega] at this
      exact Sim.mono this (fun ds v hv => ⟨h1, hv⟩)
    · rintro es u ⟨cs, ds, rfl, h1, h2, h3, h4⟩
      exact ⟨by simpa using h2, h3, by simp [h1, h4]; omega⟩

/-- `Yields` with the state of the result object -/
def Gives (k : Kind) (t : SeqTy) (o : Out ω (Res β)) (spec : Out ω (List β)) : Prop :=
  match spec with
  | .ok bs w => ∃ r, o = .ok r w ∧ Done k r bs ∧ r.ty = t
  | .thrown w => o = .thrown w
  | .ub u => o = .ub u

theorem Gives.yields {k : Kind} {t : SeqTy} {o : Out ω (Res β)} {spec : Out ω (List β)}
    (h : Gives k t o spec) : Yields o spec := by
  cases spec with
  | ok bs w => obtain ⟨r, h1, h2, _⟩ := h; exact ⟨r, h1, h2.contents⟩
  | thrown w => exact h
  | ub u => exact h

theorem withResult_gives {k : Kind} {t : SeqTy} {d : β} {body : Cpp (Fr β ω) Unit} {w : ω}
    {spec : Out ω (List β)} {r : Res β} (hr : Res.make t d = .ok () r)
    (h : Sim (fun cs s => Done k s.res cs ∧ s.res.ty = t) (body ⟨r, 0, w⟩) spec) :
    Gives k t (withResult t d body w) spec := by
  unfold withResult
  rw [hr]
  cases spec with
  | ok cs w' =>
    obtain ⟨s, h1, rfl, h3⟩ := h
    exact ⟨s.res, by simp only [h1], h3⟩
  | thrown w' =>
    obtain ⟨s, h1, rfl⟩ := h
    simp only [h1]; rfl
  | ub u =>
    have h1 : body ⟨r, 0, w⟩ = .ub u := h
    simp only [h1]; rfl

/-- the common shape `R res {}; if (...) res.resize(n); for (...) nth(i, res) = g(i); return res;` -/
theorem tabulate_gives {k : Kind} {t : SeqTy} {n : Nat} (hfit : Fits k t n) (d : β) (c : Prop) [Decidable c]
    (hc : (∀ m, t ≠ .array m) → c) {body : Nat → Cpp (Fr β ω) Unit} {g : Nat → Cpp ω β}
    (hb : ∀ i, i < n → body i = (do let b ← onW (g i); onRes (Res.set k i b))) (w : ω) :
    Gives k t (withResult t d (do
        if c then onRes (Res.resize k n)
        forUp body 0 n) w) ((List.range' 0 n).mapM g w) := by
  obtain ⟨r, r', hr, hf, hty, hres⟩ := prepare (ω := ω) hfit d c hc
  refine withResult_gives hr ?_
  have h0 := fillLoop (k := k) (t := t) (body := body) (g := g) n 0 (fun i _ h => hb i (by omega))
    ⟨r', 0, w⟩ [] (by simpa using hf) hty rfl
  have e : (do if c then onRes (Res.resize k n)
               forUp body 0 n : Cpp (Fr β ω) Unit) ⟨r, 0, w⟩ = forUp body 0 n ⟨r', 0, w⟩ := by
    have h1 := hres 0 w
    by_cases hcc : c
    · rw [if_pos hcc] at h1
      rw [if_pos hcc, Cpp.bind_ok h1]
    · rw [if_neg hcc] at h1
      have := (Out.ok.inj h1).2
      simp only [if_neg hcc]
      rw [this]
  rw [e]
  refine Sim.mono h0 ?_
  rintro cs s ⟨h1, h2, h3⟩
  exact ⟨(by simpa using h1 : Filling k n s.res cs).done h3, h2⟩

end Prelude
end Efp
