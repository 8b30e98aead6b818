import Verif.SortLemmas

/-! Quicksort and insertion sort. -/

namespace Efp
namespace Sorting

variable {α : Type} {k : Kind} {comp : α → α → Bool} {led : Ledger}

open Spec

theorem swo_partial (h : StrictWeakOrder comp) : StrictPartialOrder comp := ⟨h.irrefl, h.trans⟩

theorem spo_asymm (h : StrictPartialOrder comp) {a b : α} (hab : comp a b = true) : comp b a = false := by
  cases hba : comp b a with
  | false => rfl
  | true =>
    have := h.trans a b a hab hba
    rw [h.irrefl] at this
    cases this

theorem swo_asymm (h : StrictWeakOrder comp) {a b : α} (hab : comp a b = true) : comp b a = false := by
  cases hba : comp b a with
  | false => rfl
  | true =>
    have := h.trans a b a hab hba
    rw [h.irrefl] at this
    cases this

/-- negative transitivity -/
theorem swo_negtrans (h : StrictWeakOrder comp) {a b c : α} (hab : comp a b = false) (hbc : comp b c = false) :
    comp a c = false := by
  cases hac : comp a c with
  | false => rfl
  | true =>
    exfalso
    by_cases hba : comp b a = true
    · have := h.trans b a c hba hac
      rw [hbc] at this; cases this
    · by_cases hcb : comp c b = true
      · have := h.trans a c b hac hcb
        rw [hab] at this; cases this
      · have := (h.incomp a b c hab (eq_false_of_ne_true hba) hbc (eq_false_of_ne_true hcb)).1
        rw [hac] at this; cases this

/-! ### partition -/

theorem partLoop_run (pivot : α) (xs : List α) (pre ys zs post : List α) (i j : Nat)
    (hj : j = pre.length + ys.length + zs.length) (hi : (i + 1) % SZ = pre.length + ys.length)
    (hsz : pre.length + ys.length + zs.length + xs.length < SZ)
    (hys : ∀ y ∈ ys, comp y pivot = true) (hzs : ∀ z ∈ zs, comp z pivot = false) :
    ∃ ys' zs' i', partLoop k comp pivot j xs.length i (St led (pre ++ ys ++ zs ++ xs ++ post)) =
        .ok i' (St led (pre ++ ys' ++ zs' ++ post)) ∧
      (ys' ++ zs').Perm (ys ++ zs ++ xs) ∧ (i' + 1) % SZ = pre.length + ys'.length ∧
      (∀ y ∈ ys', comp y pivot = true) ∧ (∀ z ∈ zs', comp z pivot = false) := by
  induction xs generalizing ys zs i j with
  | nil => exact ⟨ys, zs, i, by simp [partLoop], by simp, hi, hys, hzs⟩
  | cons x xs ih =>
    have hread : Mem.read j (St led (pre ++ ys ++ zs ++ x :: xs ++ post)) =
        .ok x (St led (pre ++ ys ++ zs ++ x :: xs ++ post)) := by
      have := read_St (led := led) (pre := pre ++ ys ++ zs) (post := xs ++ post) (a := x) (i := j)
        (by simp [hj]; omega)
      simpa using this
    simp only [List.length_cons] at hsz
    simp only [List.length_cons, partLoop]
    rw [Cpp.bind_ok hread]
    by_cases hc : comp x pivot = true
    · simp only [hc, if_true]
      have hi2 : ((i + 1) % SZ + 1) % SZ = pre.length + (ys.length + 1) := by
        rw [hi, Nat.mod_eq_of_lt (by omega)]; omega
      have hswap : ∃ zs1, swap k ((i + 1) % SZ) j (St led (pre ++ ys ++ zs ++ x :: xs ++ post)) =
          .ok () (St led (pre ++ (ys ++ [x]) ++ zs1 ++ xs ++ post)) ∧ zs1.Perm zs := by
        cases zs with
        | nil =>
          refine ⟨[], ?_, .refl _⟩
          have := swap_self (k := k) (led := led) (pre := pre ++ ys) (post := xs ++ post) (a := x) (i := j)
            (by simp [hj])
          rw [hi]
          have e : pre.length + ys.length = j := by simp [hj]
          rw [e]
          simpa using this
        | cons z zs =>
          refine ⟨zs ++ [z], ?_, by simpa using (List.perm_append_comm (l₁ := zs) (l₂ := [z]))⟩
          have := swap_mid (k := k) (led := led) (pre := pre ++ ys) (mid := zs) (post := xs ++ post) (a := z) (b := x)
            (i := (i + 1) % SZ) (j := j) (by simp [hi]) (by simp [hj]; omega)
          simpa using this
      obtain ⟨zs1, hsw, hp⟩ := hswap
      obtain ⟨ys', zs', i', hrun, hperm, h3, h4, h5⟩ := ih (ys ++ [x]) zs1 ((i + 1) % SZ) (j + 1)
        (by simp [hj, hp.length_eq]; omega) (by simpa using hi2) (by simp [hp.length_eq]; omega)
        (by
          intro y hy
          rcases List.mem_append.mp hy with hy | hy
          · exact hys y hy
          · rw [List.mem_singleton.mp hy]; exact hc)
        (fun z hz => hzs z (hp.mem_iff.mp hz))
      refine ⟨ys', zs', i', ?_, ?_, h3, h4, h5⟩
      · rw [Cpp.bind_ok hsw, hrun]
      · refine hperm.trans ?_
        have : (ys ++ [x] ++ zs1 ++ xs).Perm (ys ++ [x] ++ zs ++ xs) :=
          ((hp.append_left (ys ++ [x])).append_right xs)
        refine this.trans ?_
        simp only [List.append_assoc, List.cons_append, List.nil_append]
        exact (List.perm_middle (l₁ := zs) (l₂ := xs) (a := x)).symm.append_left ys
    · have hc' : comp x pivot = false := eq_false_of_ne_true hc
      simp only [hc', Bool.false_eq_true, if_false]
      obtain ⟨ys', zs', i', hrun, hperm, h3, h4, h5⟩ := ih ys (zs ++ [x]) i (j + 1)
        (by simp [hj]; omega) hi (by simp; omega) hys
        (by
          intro z hz
          rcases List.mem_append.mp hz with hz | hz
          · exact hzs z hz
          · rw [List.mem_singleton.mp hz]; exact hc')
      refine ⟨ys', zs', i', ?_, by simpa using hperm, h3, h4, h5⟩
      simpa using hrun

theorem partition_run (xs : List α) (p : α) (pre post : List α) (hsz : pre.length + xs.length < SZ) :
    ∃ ys zs, partition k comp pre.length (pre.length + xs.length) (St led (pre ++ xs ++ p :: post)) =
        .ok (pre.length + ys.length) (St led (pre ++ ys ++ p :: (zs ++ post))) ∧
      (ys ++ zs).Perm xs ∧ (∀ y ∈ ys, comp y p = true) ∧ (∀ z ∈ zs, comp z p = false) := by
  have hread : Mem.read (pre.length + xs.length) (St led (pre ++ xs ++ p :: post)) =
      .ok p (St led (pre ++ xs ++ p :: post)) := read_St (by simp)
  have hSZ : 0 < SZ := by decide
  obtain ⟨ys, zs, i', hrun, hperm, hi, hys, hzs⟩ := partLoop_run (k := k) (comp := comp) (led := led) p xs pre
    [] [] (p :: post) ((pre.length + SZ - 1) % SZ) pre.length (by simp)
    (by
      rw [Nat.add_mod, Nat.mod_mod, ← Nat.add_mod, show pre.length + SZ - 1 + 1 = pre.length + SZ by omega,
        Nat.add_mod_right, Nat.mod_eq_of_lt (by omega)]
      simp)
    (by simpa using hsz) (by simp) (by simp)
  simp only [List.append_nil] at hrun
  simp only [List.nil_append] at hperm
  have hlen : ys.length + zs.length = xs.length := by simpa using hperm.length_eq
  have hswap : ∃ zs1, swap k ((i' + 1) % SZ) (pre.length + xs.length) (St led (pre ++ ys ++ zs ++ p :: post)) =
      .ok () (St led (pre ++ ys ++ p :: (zs1 ++ post))) ∧ zs1.Perm zs := by
    cases zs with
    | nil =>
      refine ⟨[], ?_, .refl _⟩
      have := swap_self (k := k) (led := led) (pre := pre ++ ys) (post := post) (a := p)
        (i := pre.length + xs.length) (by simp at hlen ⊢; omega)
      rw [hi]
      have e : pre.length + ys.length = pre.length + xs.length := by simp at hlen; omega
      rw [e]
      simpa using this
    | cons z zs =>
      refine ⟨zs ++ [z], ?_, by simpa using (List.perm_append_comm (l₁ := zs) (l₂ := [z]))⟩
      have := swap_mid (k := k) (led := led) (pre := pre ++ ys) (mid := zs) (post := post) (a := z) (b := p)
        (i := (i' + 1) % SZ) (j := pre.length + xs.length) (by simp [hi]) (by simp at hlen ⊢; omega)
      simpa using this
  obtain ⟨zs1, hsw, hp⟩ := hswap
  refine ⟨ys, zs1, ?_, (hp.append_left ys).trans hperm, hys, fun z hz => hzs z (hp.mem_iff.mp hz)⟩
  unfold partition
  rw [Cpp.bind_ok hread, show pre.length + xs.length - pre.length = xs.length by omega, Cpp.bind_ok hrun,
    Cpp.bind_ok hsw, hi]
  rfl

/-! ### quicksort -/

theorem quicksortF_run (fuel : Nat) (xs pre post : List α) (low high : Nat) (hlow : low = pre.length)
    (hhigh : high + 1 = pre.length + xs.length) (hfuel : xs.length ≤ fuel)
    (hsz : pre.length + xs.length < SZ) (hne : 0 < fuel) :
    ∃ ys, quicksortF k comp fuel low high (St led (pre ++ xs ++ post)) = .ok () (St led (pre ++ ys ++ post)) ∧
      ys.Perm xs ∧ (StrictPartialOrder comp → Sorted comp ys) := by
  induction fuel generalizing xs pre post low high with
  | zero => omega
  | succ fuel ih =>
    simp only [quicksortF]
    by_cases hlt : low < high
    · rw [if_pos hlt]
      rcases List.eq_nil_or_concat xs with rfl | ⟨xs', p, rfl⟩
      · simp at hhigh; omega
      · simp only [List.concat_eq_append] at *
        simp only [List.length_append, List.length_cons, List.length_nil] at hhigh hfuel hsz
        obtain ⟨ys, zs, hpart, hperm, hys, hzs⟩ := partition_run (k := k) (comp := comp) (led := led) xs' p pre post
          (by omega)
        have hlen : ys.length + zs.length = xs'.length := by simpa using hperm.length_eq
        have hpart' : partition k comp low high (St led (pre ++ (xs' ++ [p]) ++ post)) =
            .ok (pre.length + ys.length) (St led (pre ++ ys ++ p :: (zs ++ post))) := by
          rw [hlow, show high = pre.length + xs'.length by omega]
          simpa using hpart
        have hfin : ∃ ys1 : List α, ys1.Perm ys ∧ (StrictPartialOrder comp → Sorted comp ys1) ∧
            (if pre.length + ys.length ≠ 0 then quicksortF k comp fuel low (pre.length + ys.length - 1)
              else pure ()) (St led (pre ++ ys ++ p :: (zs ++ post))) =
            .ok () (St led (pre ++ ys1 ++ p :: (zs ++ post))) := by
          by_cases h0 : pre.length + ys.length ≠ 0
          · rw [if_pos h0]
            obtain ⟨ys1, hr, hp, hs⟩ := ih ys pre (p :: (zs ++ post)) low (pre.length + ys.length - 1) hlow
              (by omega) (by omega) (by omega) (by omega)
            exact ⟨ys1, hp, hs, hr⟩
          · rw [if_neg h0]
            have : ys = [] := List.length_eq_zero_iff.mp (by omega)
            subst this
            exact ⟨[], .refl _, fun _ => .nil, rfl⟩
        obtain ⟨ys1, hp1, hs1, hr1⟩ := hfin
        obtain ⟨zs1, hr2, hp2, hs2⟩ := ih zs (pre ++ ys1 ++ [p]) post (pre.length + ys.length + 1) high
          (by simp [hp1.length_eq]; omega) (by simp [hp1.length_eq]; omega) (by omega)
          (by simp [hp1.length_eq]; omega) (by omega)
        refine ⟨ys1 ++ p :: zs1, ?_, ?_, ?_⟩
        · refine (Cpp.bind_ok hpart').trans ?_
          by_cases h0 : pre.length + ys.length ≠ 0
          · rw [if_pos h0] at hr1 ⊢
            rw [Cpp.bind_ok hr1]
            simpa using hr2
          · rw [if_neg h0] at hr1 ⊢
            have hst := (Out.ok.inj hr1).2
            rw [hst]
            simpa using hr2
        · have h1 : (ys1 ++ p :: zs1).Perm (p :: (ys1 ++ zs1)) := List.perm_middle
          have h2 : (p :: (ys1 ++ zs1)).Perm (p :: (ys ++ zs)) := ((hp1.append hp2).cons p)
          have h3 : (p :: (ys ++ zs)).Perm (p :: xs') := hperm.cons p
          exact h1.trans (h2.trans (h3.trans (List.perm_append_comm (l₁ := [p]) (l₂ := xs'))))
        · intro hc
          refine List.pairwise_append.mpr ⟨hs1 hc, List.pairwise_cons.mpr ⟨?_, hs2 hc⟩, ?_⟩
          · intro z hz
            exact hzs z (hp2.mem_iff.mp hz)
          · intro a ha b hb
            have ha' := hys a (hp1.mem_iff.mp ha)
            rcases List.mem_cons.mp hb with rfl | hb
            · exact spo_asymm hc ha'
            · cases hba : comp b a with
              | false => rfl
              | true =>
                have := hc.trans b a p hba ha'
                rw [hzs b (hp2.mem_iff.mp hb)] at this
                cases this
    · rw [if_neg hlt]
      refine ⟨xs, rfl, .refl _, fun _ => ?_⟩
      match xs, hhigh with
      | [], _ => exact .nil
      | [x], _ => exact List.pairwise_singleton _ _
      | _ :: _ :: _, h => simp at h; omega

theorem quicksortBy_run (l : List α) (hsz : l.length < SZ) :
    ∃ l', quicksortBy k comp (St led l) = .ok () (St led l') ∧ l'.Perm l ∧
      (StrictPartialOrder comp → Sorted comp l') := by
  unfold quicksortBy
  rw [Cpp.bind_ok (Cpp.get_run _)]
  have hl : (St led l).cells.length = l.length := by simp [St]
  rw [hl]
  by_cases h0 : l.length ≠ 0
  · rw [if_pos h0]
    obtain ⟨ys, hr, hp, hs⟩ := quicksortF_run (k := k) (comp := comp) (led := led) (l.length - 1 - 0 + 1) l [] [] 0
      (l.length - 1) rfl (by simp; omega) (by omega) (by simpa using hsz) (by omega)
    exact ⟨ys, by simpa [quicksortRange] using hr, hp, hs⟩
  · rw [if_neg h0]
    have : l = [] := List.length_eq_zero_iff.mp (by omega)
    subst this
    exact ⟨[], rfl, .refl _, fun _ => .nil⟩

/-! ### insertion sort -/

/-- the inner loop moves the hole down over the elements greater than `key` -/
theorem insLoop_run (key : α) (us vs : List α) (pre rest : List α) (c : Cell α) (hc : k = .managed → c.alive = true) :
    ∃ us' ws c', us = us' ++ ws ∧ (∀ w ∈ ws, comp key w = true) ∧
      (∀ u us'', us' = us'' ++ [u] → comp key u = false) ∧ (k = .managed → c'.alive = true) ∧
      insLoop k comp key pre.length (pre.length + us.length)
        ⟨pre.map .live ++ us.map .live ++ c :: (vs.map .live ++ rest.map .live), led⟩ =
      .ok (pre.length + us'.length)
        ⟨pre.map .live ++ us'.map .live ++ c' :: ((ws ++ vs).map .live ++ rest.map .live), led⟩ := by
  induction h : us.length generalizing us vs c with
  | zero =>
    have : us = [] := List.length_eq_zero_iff.mp h
    subst this
    refine ⟨[], [], c, rfl, by simp, by simp, hc, ?_⟩
    cases hp : pre.length with
    | zero => simp [insLoop]
    | succ n => simp only [Nat.add_zero, insLoop, gt_iff_lt, Nat.lt_irrefl, if_false]; rfl
  | succ n ih =>
    rcases List.eq_nil_or_concat us with rfl | ⟨us0, u, rfl⟩
    · simp at h
    simp only [List.concat_eq_append] at *
    have hn : us0.length = n := by simpa using h
    have hread : Mem.read (pre.length + n)
        ⟨pre.map .live ++ (us0 ++ [u]).map .live ++ c :: (vs.map .live ++ rest.map .live), led⟩ =
        .ok u ⟨pre.map .live ++ (us0 ++ [u]).map .live ++ c :: (vs.map .live ++ rest.map .live), led⟩ := by
      have := Mem.read_mid (led := led) (pre := pre.map .live ++ us0.map .live)
        (post := c :: (vs.map .live ++ rest.map .live)) (a := u) (i := pre.length + n) (by simp [hn])
      simpa using this
    by_cases hcu : comp key u = true
    · have hmv : Mem.moveOut k (pre.length + n)
          ⟨pre.map .live ++ (us0 ++ [u]).map .live ++ c :: (vs.map .live ++ rest.map .live), led⟩ =
          .ok u ⟨pre.map .live ++ us0.map .live ++ husk k u :: c :: (vs.map .live ++ rest.map .live), led⟩ := by
        have := Mem.moveOut_mid (k := k) (led := led) (pre := pre.map .live ++ us0.map .live)
          (post := c :: (vs.map .live ++ rest.map .live)) (a := u) (i := pre.length + n) (by simp [hn])
        simpa using this
      have hasg : Mem.assign k (pre.length + n + 1) u
          ⟨pre.map .live ++ us0.map .live ++ husk k u :: c :: (vs.map .live ++ rest.map .live), led⟩ =
          .ok () ⟨pre.map .live ++ us0.map .live ++ husk k u :: ((u :: vs).map .live ++ rest.map .live), led⟩ := by
        have := Mem.assign_mid (k := k) (led := led) (pre := pre.map .live ++ us0.map .live ++ [husk k u])
          (post := vs.map .live ++ rest.map .live) (c := c) (a := u) (i := pre.length + n + 1)
          (by simp [hn]; omega) hc
        simpa using this
      obtain ⟨us', ws, c', h1, h2, h3, h4, h5⟩ := ih us0 (u :: vs) (husk k u) (by simp) hn
      refine ⟨us', ws ++ [u], c', by rw [h1]; simp, ?_, h3, h4, ?_⟩
      · intro w hw
        rcases List.mem_append.mp hw with hw | hw
        · exact h2 w hw
        · rw [List.mem_singleton.mp hw]; exact hcu
      · rw [← Nat.add_assoc]
        simp only [insLoop]
        rw [if_pos (by omega), Cpp.bind_ok hread]
        simp only [hcu, if_true]
        rw [Cpp.bind_ok hmv, Cpp.bind_ok hasg, h5]
        simp
    · have hcu' : comp key u = false := eq_false_of_ne_true hcu
      refine ⟨us0 ++ [u], [], c, by simp, by simp, ?_, hc, ?_⟩
      · intro v us'' he
        have := List.append_inj' he rfl
        rw [← List.singleton_inj.mp this.2]; exact hcu'
      · rw [← Nat.add_assoc]
        simp only [insLoop]
        rw [if_pos (by omega), Cpp.bind_ok hread]
        simp only [hcu', Bool.false_eq_true, if_false]
        simp [hn, Nat.add_assoc]

theorem insOne_run (us : List α) (key : α) (pre rest : List α) :
    ∃ us' ws, us = us' ++ ws ∧ (∀ w ∈ ws, comp key w = true) ∧
      (∀ u us'', us' = us'' ++ [u] → comp key u = false) ∧
      insOne k comp pre.length (pre.length + us.length) (St led (pre ++ us ++ key :: rest)) =
        .ok () (St led (pre ++ (us' ++ key :: ws) ++ rest)) := by
  have hmv : Mem.moveOut k (pre.length + us.length) (St led (pre ++ us ++ key :: rest)) =
      .ok key ⟨pre.map .live ++ us.map .live ++ husk k key :: (([] : List α).map .live ++ rest.map .live), led⟩ := by
    have := Mem.moveOut_mid (k := k) (led := led) (pre := pre.map .live ++ us.map .live)
      (post := rest.map .live) (a := key) (i := pre.length + us.length) (by simp)
    simpa [St] using this
  obtain ⟨us', ws, c', h1, h2, h3, h4, h5⟩ := insLoop_run (k := k) (comp := comp) (led := led) key us [] pre rest
    (husk k key) (by simp)
  refine ⟨us', ws, h1, h2, h3, ?_⟩
  unfold insOne
  rw [Cpp.bind_ok hmv, Cpp.bind_ok h5]
  have := Mem.assign_mid (k := k) (led := led) (pre := pre.map .live ++ us'.map .live)
    (post := (ws ++ []).map .live ++ rest.map .live) (c := c') (a := key) (i := pre.length + us'.length)
    (by simp) h4
  rw [this]
  simp [St]

/-- effect of inserting `key` into `us` on order and stability -/
theorem ins_sorted_stable (hc : StrictWeakOrder comp) {us us' ws : List α} {key : α} (hus : us = us' ++ ws)
    (hws : ∀ w ∈ ws, comp key w = true) (hlast : ∀ u us'', us' = us'' ++ [u] → comp key u = false)
    (hs : Sorted comp us) :
    Sorted comp (us' ++ key :: ws) ∧ Stable comp (us ++ [key]) (us' ++ key :: ws) := by
  subst hus
  obtain ⟨hs1, hs2, hs3⟩ := List.pairwise_append.mp hs
  have hkey : ∀ u ∈ us', comp key u = false := by
    rcases List.eq_nil_or_concat us' with rfl | ⟨us0, w, rfl⟩
    · simp
    · simp only [List.concat_eq_append] at *
      have hw := hlast w us0 rfl
      intro u hu
      rcases List.mem_append.mp hu with hu | hu
      · have h := (List.pairwise_append.mp hs1).2.2 u hu w (by simp)
        exact swo_negtrans hc hw h
      · rw [List.mem_singleton.mp hu]; exact hw
  refine ⟨List.pairwise_append.mpr ⟨hs1, List.pairwise_cons.mpr ⟨fun w hw => swo_asymm hc (hws w hw), hs2⟩, ?_⟩, ?_⟩
  · intro a ha b hb
    rcases List.mem_cons.mp hb with rfl | hb
    · exact hkey a ha
    · exact hs3 a ha b hb
  · intro x
    simp only [List.filter_append, List.append_assoc]
    congr 1
    by_cases hx : equivalent comp x key = true
    · have : ws.filter (equivalent comp x) = [] := by
        rw [List.filter_eq_nil_iff]
        intro w hw he
        simp only [equivalent, Bool.and_eq_true, Bool.not_eq_true'] at hx he
        have := hc.incomp key x w hx.2 hx.1 he.1 he.2
        rw [hws w hw] at this
        cases this.1
      simp [this, List.filter_cons]
    · simp [hx, List.filter_cons]

/-- the outer loop: `us` is the processed part, `xs` the rest of the range -/
theorem insRange_loop (xs us pre post : List α) :
    ∃ ys, forUp (insOne k comp pre.length) (pre.length + us.length) xs.length
        (St led (pre ++ us ++ xs ++ post)) = .ok () (St led (pre ++ ys ++ post)) ∧
      ys.Perm (us ++ xs) ∧
      (StrictWeakOrder comp → Sorted comp us → Sorted comp ys ∧ Stable comp (us ++ xs) ys) ∧
      (Sorted comp (us ++ xs) → ys = us ++ xs) := by
  induction xs generalizing us with
  | nil => exact ⟨us, by simp, by simp, fun _ h => ⟨h, fun _ => by simp⟩, by simp⟩
  | cons x xs ih =>
    obtain ⟨us', ws, h1, h2, h3, h4⟩ := insOne_run (k := k) (comp := comp) (led := led) us x pre (xs ++ post)
    have hlen : (us' ++ x :: ws).length = us.length + 1 := by rw [h1]; simp; omega
    obtain ⟨ys, hr, hp, hs, hid⟩ := ih (us' ++ x :: ws)
    have hperm1 : (us' ++ x :: ws).Perm (us ++ [x]) := by
      rw [h1]
      simpa using (List.perm_append_comm (l₁ := [x]) (l₂ := ws)).append_left us'
    refine ⟨ys, ?_, ?_, ?_, ?_⟩
    · rw [List.length_cons, forUp_succ]
      have e : insOne k comp pre.length (pre.length + us.length) (St led (pre ++ us ++ x :: xs ++ post)) =
          .ok () (St led (pre ++ (us' ++ x :: ws) ++ xs ++ post)) := by simpa using h4
      rw [Cpp.bind_ok e, Nat.add_assoc, ← hlen, hr]
    · refine hp.trans ?_
      simpa using hperm1.append_right xs
    · intro hc hsu
      obtain ⟨hso, hst⟩ := ins_sorted_stable hc h1 h2 h3 hsu
      obtain ⟨h6, h7⟩ := hs hc hso
      refine ⟨h6, fun y => ?_⟩
      rw [h7 y, List.filter_append, hst y, ← List.filter_append]
      simp
    · intro hsorted
      have hws : ws = [] := by
        cases ws with
        | nil => rfl
        | cons w ws =>
          have h := (List.pairwise_append.mp hsorted).2.2 w (by rw [h1]; simp) x (by simp)
          rw [h2 w (by simp)] at h
          cases h
      subst hws
      have hus : us = us' := by simpa using h1
      subst hus
      simpa using hid (by simpa using hsorted)

theorem insertionRange_run (xs pre post : List α) (hne : xs ≠ []) (left right : Nat) (hl : left = pre.length)
    (hr : right + 1 = pre.length + xs.length) :
    ∃ ys, insertionRange k comp left right (St led (pre ++ xs ++ post)) =
        .ok () (St led (pre ++ ys ++ post)) ∧ ys.Perm xs ∧
      (StrictWeakOrder comp → Sorted comp ys ∧ Stable comp xs ys) ∧ (Sorted comp xs → ys = xs) := by
  cases xs with
  | nil => exact absurd rfl hne
  | cons x xs =>
    obtain ⟨ys, h1, h2, h3, h4⟩ := insRange_loop (k := k) (comp := comp) (led := led) xs [x] pre post
    refine ⟨ys, ?_, by simpa using h2, fun hc => ?_, ?_⟩
    · unfold insertionRange
      subst hl
      rw [show right - pre.length = xs.length by simp at hr; omega]
      simpa using h1
    · have := h3 hc (List.pairwise_singleton _ _)
      simpa using this
    · simpa using h4

theorem insertionSortBy_run (l : List α) :
    ∃ l', insertionSortBy k comp (St led l) = .ok () (St led l') ∧ l'.Perm l ∧
      (StrictWeakOrder comp → Sorted comp l' ∧ Stable comp l l') ∧ (Sorted comp l → l' = l) := by
  unfold insertionSortBy
  rw [Cpp.bind_ok (Cpp.get_run _)]
  have hl : (St led l).cells.length = l.length := by simp [St]
  rw [hl]
  by_cases h0 : l.length ≠ 0
  · rw [if_pos h0]
    obtain ⟨ys, h1, h2, h3, h4⟩ := insertionRange_run (k := k) (comp := comp) (led := led) l [] []
      (by intro h; subst h; simp at h0) 0 (l.length - 1) rfl (by simp; omega)
    exact ⟨ys, by simpa using h1, h2, h3, h4⟩
  · rw [if_neg h0]
    have : l = [] := List.length_eq_zero_iff.mp (by omega)
    subst this
    exact ⟨[], rfl, .refl _, fun _ => ⟨.nil, fun _ => rfl⟩, fun _ => rfl⟩

theorem sortUnstableBy_run (l : List α) (hsz : l.length < SZ) :
    ∃ l', sortUnstableBy k comp (St led l) = .ok () (St led l') ∧ l'.Perm l ∧
      (StrictPartialOrder comp → Sorted comp l') := by
  unfold sortUnstableBy
  rw [Cpp.bind_ok (Cpp.get_run _)]
  have hl : (St led l).cells.length = l.length := by simp [St]
  rw [hl]
  by_cases h0 : l.length ≤ 1
  · rw [if_pos h0]
    refine ⟨l, rfl, .refl _, fun _ => ?_⟩
    match l, h0 with
    | [], _ => exact .nil
    | [x], _ => exact List.pairwise_singleton _ _
    | _ :: _ :: _, h => simp at h
  · rw [if_neg h0]
    obtain ⟨ys, hr, hp, hq⟩ := quicksortF_run (k := k) (comp := comp) (led := led) (l.length - 1 - 0 + 1) l [] [] 0
      (l.length - 1) rfl (by simp; omega) (by omega) (by simpa using hsz) (by omega)
    simp only [List.nil_append, List.append_nil] at hr
    obtain ⟨zs, hr2, hp2, _, hs2⟩ := insertionSortBy_run (k := k) (comp := comp) (led := led) ys
    refine ⟨zs, ?_, hp2.trans hp, fun hc => by rw [hs2 (hq hc)]; exact hq hc⟩
    rw [show quicksortRange k comp 0 (l.length - 1) =
      quicksortF (α := α) k comp (l.length - 1 - 0 + 1) 0 (l.length - 1) from rfl]
    rw [Cpp.bind_ok hr, hr2]

end Sorting
end Efp
