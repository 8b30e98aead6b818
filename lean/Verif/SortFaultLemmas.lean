import Verif.Spec.SortFault
import Verif.SortAny
import Verif.SortCostLemmas

/-!
# The sorts under an arbitrary comparator and elements that throw
-/

namespace Efp
namespace Sorting

open Spec

variable {α β γ : Type} {k : Kind} {e : Client α} {h : Nat} {led : Ledger} {l : List α}
  {T : Mem α → Prop} {Q : β → Mem α → Prop}

/-- `h` slots suffice for what a failed call of `e` can spoil -/
def Allow (e : Client α) (h : Nat) : Prop := (Client.Gentle e ∧ 1 ≤ h) ∨ 2 ≤ h

theorem Allow.one (ha : Allow e h) : 1 ≤ h := by rcases ha with h | h <;> omega

/-- the storage holds the elements of `l'`, except perhaps in slot `d` -/
def Pit (led : Ledger) (l' : List α) (d : Nat) (m : Mem α) : Prop :=
  m.led = led ∧ (∀ c ∈ m.cells, c.alive = true) ∧ m.cells.length = l'.length ∧
  ∀ i, i ≠ d → m.cells[i]? = l'[i]?.map .live

theorem pit_St (l' : List α) (d : Nat) : Pit led l' d (St led l') := by
  refine ⟨rfl, ?_, by simp [St], fun i _ => by simp [St]⟩
  intro c hc
  simp only [St, List.mem_map] at hc
  obtain ⟨a, _, rfl⟩ := hc
  rfl

theorem on_alive (a : Aftermath α) {c : Cell α} (hc : c.alive = true) : (a.on c).alive = true := by
  cases a with
  | untouched => exact hc
  | value a => rfl
  | movedFrom => rfl

theorem modify_alive {cs : List (Cell α)} (i : Nat) (a : Aftermath α) (hc : ∀ c ∈ cs, c.alive = true) :
    ∀ c ∈ cs.modify i a.on, c.alive = true := by
  intro c hm
  obtain ⟨j, hj, rfl⟩ := List.mem_iff_getElem.1 hm
  rw [List.getElem_modify]
  split
  · exact on_alive _ (hc _ (List.getElem_mem _))
  · exact hc _ (List.getElem_mem _)

theorem set_alive {cs : List (Cell α)} (i : Nat) {c : Cell α} (hc : ∀ c ∈ cs, c.alive = true) (h : c.alive = true) :
    ∀ d ∈ cs.set i c, d.alive = true := by
  intro d hd
  rcases List.mem_or_eq_of_mem_set hd with h' | rfl
  · exact hc _ h'
  · exact h

theorem Pit.holes {l' : List α} {d : Nat} {m : Mem α} (hm : Pit led l' d m) (hp : l'.Perm l) (h1 : 1 ≤ h) : Holes h led l m := by
  obtain ⟨h2, h3, h4, h5⟩ := hm
  exact ⟨h2, h3, l', hp, h4, [d], h1, fun i hi => h5 i (by simpa using hi)⟩

theorem Pit.wreck {l' : List α} {d : Nat} {m : Mem α} {c : Nat} {f : Fault α} {src? dst? : Option Nat} (hm : Pit led l' d m)
    (hp : l'.Perm l) (ha : Allow e h) (hf : e.fault c = some f) (hd : dst? = none ∨ dst? = some d) :
    Holes h led l (Sorting.wreck f src? dst? m) := by
  obtain ⟨h2, h3, h4, h5⟩ := hm
  have hsrc : ∃ cs', spoil f.src src? m.cells = cs' ∧ (∀ x ∈ cs', x.alive = true) ∧ cs'.length = l'.length ∧
      ∃ bad : List Nat, bad.length + 1 ≤ h ∧ ∀ i, i ≠ d → i ∉ bad → cs'[i]? = l'[i]?.map .live := by
    cases src? with
    | none => exact ⟨_, rfl, h3, h4, [], ha.one, fun i hi _ => h5 i hi⟩
    | some s =>
      refine ⟨_, rfl, modify_alive _ _ h3, (List.length_modify _ _ _).trans h4, ?_⟩
      rcases ha with ⟨hg, h1⟩ | h1
      · refine ⟨[], h1, fun i hi _ => ?_⟩
        have hon : f.src.on = (id : Cell α → Cell α) := by rw [hg c f hf]; rfl
        show (m.cells.modify s f.src.on)[i]? = _
        rw [hon, List.modify_id]
        exact h5 i hi
      · refine ⟨[s], h1, fun i hi hb => ?_⟩
        show (m.cells.modify s f.src.on)[i]? = _
        have hne : s ≠ i := by rintro rfl; simp at hb
        rw [List.getElem?_modify]
        simpa [hne] using h5 i hi
  obtain ⟨cs', e1, h6, h7, bad, h8, h9⟩ := hsrc
  unfold Sorting.wreck
  rw [e1]
  rcases hd with rfl | rfl
  · show Holes h led l { m with cells := cs' }
    exact ⟨h2, h6, l', hp, h7, d :: bad, by simpa using h8, fun i hi => h9 i (by simp at hi; exact hi.1) (by simp at hi; exact hi.2)⟩
  · show Holes h led l { m with cells := cs'.modify d f.dst.on }
    refine ⟨h2, modify_alive _ _ h6, l', hp, (List.length_modify _ _ _).trans h7, d :: bad, by simpa using h8, fun i hi => ?_⟩
    simp only [List.mem_cons, not_or] at hi
    show (cs'.modify d f.dst.on)[i]? = _
    have hne : d ≠ i := fun hdi => hi.1 hdi.symm
    rw [List.getElem?_modify]
    simpa [hne] using h9 i hi.1 hi.2

theorem ends_call {src? dst? : Option Nat} {p : Cpp (Mem α) γ} {g : γ → Counted α β} {m m' : Mem α} {c : Nat} {b : γ}
    (hp : p m = .ok b m') (ht : ∀ f, e.fault c = some f → T (wreck f src? dst? m)) (hg : Ends T Q (g b (m', c + 1))) :
    Ends T Q ((call e src? dst? p >>= g) (m, c)) := by
  rw [Cpp.bind_run]
  simp only [call, hp]
  cases hf : e.fault c with
  | none => exact hg
  | some f => exact ht f hf

theorem ends_call' {src? dst? : Option Nat} {p : Cpp (Mem α) β} {m m' : Mem α} {c : Nat} {b : β}
    (hp : p m = .ok b m') (ht : ∀ f, e.fault c = some f → T (wreck f src? dst? m)) (hq : Q b m') :
    Ends T Q (call e src? dst? p (m, c)) := by
  simp only [call, hp]
  cases hf : e.fault c with
  | none => exact hq
  | some f => exact ht f hf

theorem take_pit {l' : List α} {i d : Nat} {m m' : Mem α} {c : Cell α} (hm : Pit led l' i m) (ht : take k d m = .ok c m') :
    (∀ x ∈ m'.cells, x.alive = true) ∧ m'.led = led ∧ m'.cells.length = l'.length ∧ c.alive = true ∧ (i = d → Pit led l' i m') := by
  obtain ⟨h2, h3, h4, h5⟩ := hm
  unfold take at ht
  cases hc : m.cells[d]? with
  | none => rw [hc] at ht; simp at ht
  | some x =>
    rw [hc] at ht
    have hx : x.alive = true := h3 _ (List.mem_of_getElem? hc)
    cases x with
    | raw => cases hx
    | live a =>
      cases k with
      | trivial => cases ht; exact ⟨h3, h2, h4, hx, fun _ => ⟨h2, h3, h4, h5⟩⟩
      | managed =>
        cases ht
        exact ⟨set_alive _ h3 rfl, h2, by simpa using h4, hx, fun hd => ⟨h2, set_alive _ h3 rfl, by simpa using h4, fun j hj => by
          show (m.cells.set d .moved)[j]? = _
          rw [List.getElem?_set_ne (by omega)]; exact h5 j hj⟩⟩
    | moved =>
      cases k with
      | trivial => cases ht; exact ⟨h3, h2, h4, hx, fun _ => ⟨h2, h3, h4, h5⟩⟩
      | managed =>
        cases ht
        exact ⟨set_alive _ h3 rfl, h2, by simpa using h4, hx, fun hd => ⟨h2, set_alive _ h3 rfl, by simpa using h4, fun j hj => by
          show (m.cells.set d .moved)[j]? = _
          rw [List.getElem?_set_ne (by omega)]; exact h5 j hj⟩⟩

theorem put_inv {i : Nat} {c : Cell α} {m m' : Mem α} (hp : put k i c m = .ok () m') : m' = { m with cells := m.cells.set i c } := by
  unfold put at hp
  cases hc : m.cells[i]? with
  | none => rw [hc] at hp; simp at hp
  | some d =>
    rw [hc] at hp
    simp only at hp
    split at hp
    · cases hp
    · cases hp; rfl

theorem swapX_ends {l' : List α} {i j c : Nat} (hp : l'.Perm l) (ha : Allow e h) (hi : i < l'.length) (hj : j < l'.length) :
    Ends (Holes h led l) (fun _ m => m = St led (swapL l' i j hi hj)) (swapX k e i j (St led l', c)) := by
  have hs := swap_run (k := k) (led := led) hi hj
  unfold swap at hs
  obtain ⟨temp, m1, t1, hs⟩ := bind_ok_inv hs
  obtain ⟨b, m2, t2, hs⟩ := bind_ok_inv hs
  obtain ⟨_, m3, t3, t4⟩ := bind_ok_inv hs
  obtain ⟨a1, l1, n1, _, p1⟩ := take_pit (pit_St l' i) t1
  have p1 := p1 rfl
  obtain ⟨a2, l2, n2, ab, _⟩ := take_pit p1 t2
  have e3 := put_inv t3
  have e4 := put_inv t4
  have a3 : ∀ x ∈ m3.cells, x.alive = true := by rw [e3]; exact set_alive _ a2 ab
  have p3 : Pit led (swapL l' i j hi hj) j m3 := by
    refine ⟨by rw [e3]; exact l2, a3, by rw [e3]; simpa using n2, fun x hx => ?_⟩
    have : (St led (swapL l' i j hi hj)).cells[x]? = m3.cells[x]? := by
      rw [e4]
      exact List.getElem?_set_ne (fun h => hx h.symm)
    rw [← this]
    simp [St]
  have hmv : moveSlot k i j m1 = .ok () m3 := by
    unfold moveSlot
    rw [Cpp.bind_ok t2]
    exact t3
  unfold swapX
  refine ends_call t1 (fun f hf => (pit_St l' i).wreck hp ha hf (Or.inl rfl)) ?_
  refine ends_call hmv (fun f hf => p1.wreck hp ha hf (Or.inr rfl)) ?_
  exact ends_call' t4 (fun f hf => p3.wreck ((swapL_perm _ _).trans hp) ha hf (Or.inr rfl)) rfl

theorem holes_of {l' : List α} (hp : l'.Perm l) (ha : Allow e h) : Holes h led l (St led l') := (pit_St l' 0).holes hp ha.one

/-! ### heapsort -/

theorem pickLarger_fault {n largest c : Nat} {l' : List α} {cnt : Nat} (hp : l'.Perm l) (ha : Allow e h) (hn : n ≤ l'.length) (hl : largest < n) :
    Ends (Holes h led l) (fun r m => m = St led l' ∧ r < n ∧ (r = largest ∨ r = c)) (pickLargerC e.comp n largest c (St led l', cnt)) :=
  (pickLarger_any (.refl l') hn hl).mono (fun m hm => by
    obtain ⟨l2, rfl, h2⟩ := hm
    exact holes_of (h2.trans hp) ha) fun _ _ hq => hq

theorem heapify_fault (ha : Allow e h) : ∀ (fuel n i : Nat) (l' : List α) (cnt : Nat), l'.Perm l → n ≤ l'.length → i < n → n - i ≤ fuel →
    Ends (Holes h led l) (fun _ => Same led l) (heapifyX k e fuel n i (St led l', cnt))
  | 0, n, i, _, _, _, _, h1, h2 => by omega
  | fuel + 1, n, i, l', cnt, hp, hn, hi, hf => by
    unfold heapifyX
    refine ends_bind (pickLarger_fault hp ha hn hi) fun l1 m c h1 => ?_
    obtain ⟨rfl, h1, h1'⟩ := h1
    refine ends_bind (pickLarger_fault hp ha hn h1) fun l2 m c h2 => ?_
    obtain ⟨rfl, h2, h2'⟩ := h2
    by_cases hne : l2 ≠ i
    · rw [if_pos hne]
      refine ends_bind (swapX_ends hp ha (by omega) (by omega)) ?_
      rintro _ m c' rfl
      exact heapify_fault ha fuel n l2 _ _ ((swapL_perm _ _).trans hp) (by simpa using hn) h2 (by omega)
    · rw [if_neg hne]
      exact Same.of hp

theorem build_fault (ha : Allow e h) (n : Nat) : ∀ (c : Nat) (l' : List α) (cnt : Nat), l'.Perm l → n ≤ l'.length → c ≤ n →
    Ends (Holes h led l) (fun _ => Same led l) (buildLoopX k e n c (St led l', cnt))
  | 0, l', cnt, hp, _, _ => Same.of hp
  | i + 1, l', cnt, hp, hn, hc => by
    unfold buildLoopX
    refine ends_bind (heapify_fault ha _ _ _ _ _ hp hn (by omega) (by omega)) fun _ m c h => ?_
    obtain ⟨l2, rfl, h2⟩ := h
    exact build_fault ha n i l2 c h2 (by rw [h2.length_eq, ← hp.length_eq]; exact hn) (by omega)

theorem extract_fault (ha : Allow e h) : ∀ (c : Nat) (l' : List α) (cnt : Nat), l'.Perm l → c ≤ l'.length →
    Ends (Holes h led l) (fun _ => Same led l) (extractLoopX k e c (St led l', cnt))
  | 0, l', cnt, hp, _ => Same.of hp
  | 1, l', cnt, hp, _ => Same.of hp
  | i + 2, l', cnt, hp, hc => by
    unfold extractLoopX
    refine ends_bind (swapX_ends hp ha (by omega) (by omega)) ?_
    rintro _ m c' rfl
    refine ends_bind (heapify_fault (l := l) ha _ _ _ _ _ ((swapL_perm _ _).trans hp) (by rw [swapL_length]; omega) (by omega) (by omega)) fun _ m c h => ?_
    obtain ⟨l2, rfl, h2⟩ := h
    exact extract_fault ha (i + 1) l2 c h2 (by rw [h2.length_eq, ← hp.length_eq]; omega)

theorem heapsort_fault (ha : Allow e h) (cnt : Nat) : Ends (Holes h led l) (fun _ => Same led l) (heapsortX k e (St led l, cnt)) := by
  unfold heapsortX
  refine ends_lift (Cpp.get_run _) ?_
  have hlen : (St led l).cells.length = l.length := by simp [St]
  rw [hlen]
  by_cases h : l.length > 1
  · rw [if_pos h]
    refine ends_bind (build_fault ha _ _ _ _ (.refl _) (Nat.le_refl _) (by omega)) fun _ m c h => ?_
    obtain ⟨l2, rfl, h2⟩ := h
    exact extract_fault ha _ l2 c h2 (Nat.le_of_eq h2.length_eq.symm)
  · rw [if_neg h]
    exact extract_fault ha _ l cnt (.refl _) (Nat.le_refl _)

/-! ### quicksort -/

theorem partLoop_fault (ha : Allow e h) (pivot : α) (low : Nat) : ∀ (n j i : Nat) (l' : List α) (cnt : Nat), l'.Perm l → l'.length < SZ →
    j + n < l'.length → low ≤ (i + 1) % SZ → (i + 1) % SZ ≤ j →
    Ends (Holes h led l) (fun i' m => Same led l m ∧ low ≤ (i' + 1) % SZ ∧ (i' + 1) % SZ ≤ j + n) (partLoopX k e pivot j n i (St led l', cnt))
  | 0, j, i, l', cnt, hp, _, _, h1, h2 => ⟨Same.of hp, h1, h2⟩
  | n + 1, j, i, l', cnt, hp, hsz, hn, h1, h2 => by
    unfold partLoopX
    refine ends_lift (read_get (by omega)) (ends_cmp (holes_of hp ha) fun r c => ?_)
    cases r with
    | true =>
      rw [if_pos rfl]
      refine ends_bind (swapX_ends hp ha (by omega) (by omega)) ?_
      rintro _ m c' rfl
      have e : ((i + 1) % SZ + 1) % SZ = (i + 1) % SZ + 1 := Nat.mod_eq_of_lt (by omega)
      refine (partLoop_fault ha pivot low n (j + 1) ((i + 1) % SZ) _ c' ((swapL_perm _ _).trans hp) (by rw [swapL_length]; exact hsz)
        (by rw [swapL_length]; omega) (by omega) (by omega)).mono (fun _ h => h) fun b m h => ⟨h.1, h.2.1, by omega⟩
    | false =>
      rw [if_neg (by decide)]
      exact (partLoop_fault ha pivot low n (j + 1) i _ c hp hsz (by omega) h1 (by omega)).mono (fun _ h => h) fun b m h => ⟨h.1, h.2.1, by omega⟩

theorem partition_fault (ha : Allow e h) (low high : Nat) (l' : List α) (cnt : Nat) (hp : l'.Perm l) (hsz : l'.length < SZ) (h1 : low < high)
    (h2 : high < l'.length) :
    Ends (Holes h led l) (fun i m => Same led l m ∧ low ≤ i ∧ i ≤ high) (partitionX k e low high (St led l', cnt)) := by
  unfold partitionX
  refine ends_call (read_get h2) (fun f hf => (pit_St l' 0).wreck hp ha hf (Or.inl rfl)) ?_
  have e : ((low + SZ - 1) % SZ + 1) % SZ = low := by
    by_cases h0 : low = 0
    · subst h0
      decide
    · rw [show low + SZ - 1 = low - 1 + SZ by omega, Nat.add_mod_right, Nat.mod_eq_of_lt (show low - 1 < SZ by omega),
        Nat.mod_eq_of_lt (by omega)]
      omega
  refine ends_bind (partLoop_fault ha _ low _ _ _ _ _ hp hsz (by omega) (by omega) (by omega)) fun i m c h => ?_
  obtain ⟨⟨l2, rfl, h3⟩, h4, h5⟩ := h
  have hl2 : l2.length = l'.length := by rw [h3.length_eq, hp.length_eq]
  refine ends_bind (swapX_ends h3 ha (by omega) (by omega)) ?_
  rintro _ m c' rfl
  exact ⟨Same.of ((swapL_perm _ _).trans h3), h4, by omega⟩

theorem quicksortF_fault (ha : Allow e h) : ∀ (fuel low high : Nat) (l' : List α) (cnt : Nat), l'.Perm l → l'.length < SZ → high < l'.length →
    high - low < fuel → Ends (Holes h led l) (fun _ => Same led l) (quicksortFX k e fuel low high (St led l', cnt))
  | 0, _, _, _, _, _, _, _, h => by omega
  | fuel + 1, low, high, l', cnt, hp, hsz, hh, hf => by
    unfold quicksortFX
    by_cases h : low < high
    · rw [if_pos h]
      refine ends_bind (partition_fault ha low high l' cnt hp hsz h hh) fun pi m c hpi => ?_
      obtain ⟨⟨l2, rfl, h2⟩, h3, h4⟩ := hpi
      have hl2 : l2.length = l'.length := by rw [h2.length_eq, hp.length_eq]
      by_cases h0 : pi ≠ 0
      · rw [if_pos h0]
        refine ends_bind (quicksortF_fault ha fuel low (pi - 1) l2 c h2 (by omega) (by omega) (by omega)) fun _ m c h => ?_
        obtain ⟨l3, rfl, h5⟩ := h
        have hl3 : l3.length = l'.length := by rw [h5.length_eq, hp.length_eq]
        exact quicksortF_fault ha fuel (pi + 1) high l3 c h5 (by omega) (by omega) (by omega)
      · rw [if_neg h0]
        exact quicksortF_fault ha fuel (pi + 1) high l2 c h2 (by omega) (by omega) (by omega)
    · rw [if_neg h]
      exact Same.of hp

theorem quicksort_fault (ha : Allow e h) (hsz : l.length < SZ) (cnt : Nat) :
    Ends (Holes h led l) (fun _ => Same led l) (quicksortX k e (St led l, cnt)) := by
  unfold quicksortX
  refine ends_lift (Cpp.get_run _) ?_
  have hlen : (St led l).cells.length = l.length := by simp [St]
  rw [hlen]
  by_cases h : l.length ≠ 0
  · rw [if_pos h]
    exact quicksortF_fault ha _ _ _ _ _ (.refl _) hsz (by omega) (by omega)
  · rw [if_neg h]
    exact Same.refl

/-! ### insertion sort -/

theorem pit_hole {pre post : List α} {c : Cell α} {key : α} {j : Nat} (hj : pre.length = j) (hc : c.alive = true) :
    Pit led (pre ++ key :: post) j ⟨pre.map .live ++ c :: post.map .live, led⟩ := by
  refine ⟨rfl, ?_, by simp, fun i hi => ?_⟩
  · intro x hx
    simp only [List.mem_append, List.mem_map, List.mem_cons] at hx
    rcases hx with ⟨a, _, rfl⟩ | rfl | ⟨a, _, rfl⟩
    · rfl
    · exact hc
    · rfl
  · show (pre.map Cell.live ++ c :: post.map Cell.live)[i]? = _
    rcases Nat.lt_trichotomy i pre.length with h1 | h1 | h1
    · rw [List.getElem?_append_left (by simpa using h1), List.getElem?_append_left h1]
      simp
    · omega
    · rw [List.getElem?_append_right (by simp; omega), List.getElem?_append_right (by omega), List.length_map]
      obtain ⟨d, hd⟩ : ∃ d, i - pre.length = d + 1 := ⟨i - pre.length - 1, by omega⟩
      rw [hd]
      simp

theorem insLoop_fault (ha : Allow e h) (key : α) (left : Nat) : ∀ (j : Nat) (m : Mem α) (cnt : Nat), HoleAt led l key j m →
    Ends (Holes h led l) (fun j' => HoleAt led l key j') (insLoopX k e key left j (m, cnt))
  | 0, m, cnt, h => h
  | j + 1, m, cnt, hh => by
    unfold insLoopX
    by_cases hj : j + 1 > left
    · rw [if_pos hj]
      obtain ⟨pre, c, post, rfl, h2, h3, h4⟩ := hh
      have hpit := pit_hole (led := led) (key := key) (post := post) h2 h3
      rcases List.eq_nil_or_concat pre with rfl | ⟨us, u, rfl⟩
      · simp at h2
      simp only [List.concat_eq_append] at *
      have hu : us.length = j := by simpa using h2
      have hread : Mem.read j (⟨(us ++ [u]).map .live ++ c :: post.map .live, led⟩ : Mem α) =
          .ok u ⟨(us ++ [u]).map .live ++ c :: post.map .live, led⟩ := by
        have := Mem.read_mid (led := led) (pre := us.map .live) (post := c :: post.map .live) (a := u) (i := j) (by simpa using hu)
        simpa using this
      refine ends_lift hread (ends_cmp (hpit.holes h4 ha.one) fun r cnt' => ?_)
      cases r with
      | false =>
        rw [if_neg (by decide)]
        exact ⟨_, c, post, rfl, h2, h3, h4⟩
      | true =>
        rw [if_pos rfl]
        have hmv : Mem.moveOut k j (⟨(us ++ [u]).map .live ++ c :: post.map .live, led⟩ : Mem α) =
            .ok u ⟨us.map .live ++ husk k u :: c :: post.map .live, led⟩ := by
          have := Mem.moveOut_mid (k := k) (led := led) (pre := us.map .live) (post := c :: post.map .live) (a := u) (i := j) (by simpa using hu)
          simpa using this
        have hasg : Mem.assign k (j + 1) u (⟨us.map .live ++ husk k u :: c :: post.map .live, led⟩ : Mem α) =
            .ok () ⟨us.map .live ++ husk k u :: (u :: post).map .live, led⟩ := by
          have := Mem.assign_mid (k := k) (led := led) (pre := us.map .live ++ [husk k u]) (post := post.map .live) (c := c) (a := u)
            (i := j + 1) (by simp [hu]) (fun _ => h3)
          simpa using this
        have hb : shiftUp k j (⟨(us ++ [u]).map .live ++ c :: post.map .live, led⟩ : Mem α) =
            .ok () ⟨us.map .live ++ husk k u :: (u :: post).map .live, led⟩ := by
          unfold shiftUp
          rw [Cpp.bind_ok hmv, hasg]
        refine ends_call hb (fun f hf => hpit.wreck h4 ha hf (Or.inr rfl)) ?_
        refine insLoop_fault ha key left j _ (cnt' + 1) ⟨us, husk k u, u :: post, rfl, hu, by simp, ?_⟩
        refine List.Perm.trans ?_ h4
        rw [List.append_assoc]
        exact List.Perm.append_left _ (List.Perm.swap u key post)
    · rw [if_neg hj]
      exact hh

theorem insOne_fault (ha : Allow e h) (left i : Nat) (l' : List α) (cnt : Nat) (hp : l'.Perm l) (hi : i < l'.length) :
    Ends (Holes h led l) (fun _ => Same led l) (insOneX k e left i (St led l', cnt)) := by
  unfold insOneX
  have hl : l' = l'.take i ++ l'[i] :: l'.drop (i + 1) := by
    rw [← List.drop_eq_getElem_cons hi, List.take_append_drop]
  have hmv : Mem.moveOut k i (St led l') = .ok l'[i] ⟨(l'.take i).map .live ++ husk k l'[i] :: (l'.drop (i + 1)).map .live, led⟩ := by
    have := Mem.moveOut_mid (k := k) (led := led) (pre := (l'.take i).map .live) (post := (l'.drop (i + 1)).map .live) (a := l'[i])
      (i := i) (by simp; omega)
    rw [← this]
    congr 1
    rw [← List.map_cons (f := Cell.live), ← List.map_append, ← hl]
    rfl
  refine ends_call hmv (fun f hf => (pit_St l' i).wreck hp ha hf (Or.inl rfl)) ?_
  refine ends_bind (insLoop_fault ha l'[i] left i _ _ ⟨_, _, _, rfl, by simp; omega, by simp, hl ▸ hp⟩) fun j m c h => ?_
  obtain ⟨pre, d, post, rfl, h2, h3, h4⟩ := h
  exact ends_call' (Mem.assign_mid (by simpa using h2) (fun _ => h3)) (fun f hf => (pit_hole h2 h3).wreck h4 ha hf (Or.inr rfl))
    ⟨pre ++ l'[i] :: post, by simp [St], h4⟩

theorem insRange_fault (ha : Allow e h) (left : Nat) : ∀ (n i : Nat) (l' : List α) (cnt : Nat), l'.Perm l → i + n ≤ l'.length →
    Ends (Holes h led l) (fun _ => Same led l) (forUp (insOneX k e left) i n (St led l', cnt))
  | 0, i, l', cnt, hp, _ => Same.of hp
  | n + 1, i, l', cnt, hp, hn => by
    rw [forUp_succ]
    refine ends_bind (insOne_fault ha left i l' cnt hp (by omega)) fun _ m c h => ?_
    obtain ⟨l2, rfl, h2⟩ := h
    exact insRange_fault ha left n (i + 1) l2 c h2 (by rw [h2.length_eq, ← hp.length_eq]; omega)

theorem insertionSort_fault (ha : Allow e h) (l' : List α) (cnt : Nat) (hp : l'.Perm l) :
    Ends (Holes h led l) (fun _ => Same led l) (insertionSortX k e (St led l', cnt)) := by
  unfold insertionSortX
  refine ends_lift (Cpp.get_run _) ?_
  have hlen : (St led l').cells.length = l'.length := by simp [St]
  rw [hlen]
  by_cases h : l'.length ≠ 0
  · rw [if_pos h]
    exact insRange_fault ha _ _ _ _ _ hp (by omega)
  · rw [if_neg h]
    exact Same.of hp

theorem sortUnstable_fault (ha : Allow e h) (hsz : l.length < SZ) (cnt : Nat) :
    Ends (Holes h led l) (fun _ => Same led l) (sortUnstableX k e (St led l, cnt)) := by
  unfold sortUnstableX
  refine ends_lift (Cpp.get_run _) ?_
  have hlen : (St led l).cells.length = l.length := by simp [St]
  rw [hlen]
  by_cases h : l.length ≤ 1
  · rw [if_pos h]
    exact Same.refl
  · rw [if_neg h]
    refine ends_bind (quicksortF_fault ha _ _ _ _ _ (.refl _) hsz (by omega) (by omega)) fun _ m c hs => ?_
    obtain ⟨l2, rfl, h2⟩ := hs
    exact insertionSort_fault ha l2 c h2

/-! ### sort -/

theorem shift_fault (ha : Allow e h) (v : α) (P : List α) : ∀ (n : Nat) (xs R : List α) (y : α) (cnt : Nat), xs.length = n →
    (P ++ xs ++ v :: R).Perm l →
    Ends (Holes h led l) (fun _ m => ∃ z, m = St led (P ++ z :: (xs ++ R)))
      (forDown (shiftOneX k e) (P.length + n) n (St led (P ++ xs ++ y :: R), cnt)) := by
  intro n
  induction n with
  | zero =>
    intro xs R y cnt hn hp
    have : xs = [] := List.length_eq_zero_iff.mp hn
    subst this
    exact ⟨y, by simp⟩
  | succ n ih =>
    intro xs R y cnt hn hp
    rcases List.eq_nil_or_concat xs with rfl | ⟨us, u, rfl⟩
    · simp at hn
    simp only [List.concat_eq_append] at *
    have hu : us.length = n := by simpa using hn
    have hstep : shiftOne k (P.length + (n + 1)) (St led (P ++ (us ++ [u]) ++ y :: R)) =
        .ok () (St led (P ++ us ++ u :: (u :: R))) := by
      unfold shiftOne
      have hr : Mem.read (P.length + (n + 1) - 1) (St led (P ++ (us ++ [u]) ++ y :: R)) = .ok u (St led (P ++ (us ++ [u]) ++ y :: R)) := by
        have := Mem.read_mid (led := led) (pre := (P ++ us).map .live) (post := (y :: R).map .live) (a := u)
          (i := P.length + (n + 1) - 1) (by simp; omega)
        simpa [St] using this
      rw [Cpp.bind_ok hr]
      have := assign_St (k := k) (led := led) (pre := P ++ us ++ [u]) (post := R) (a := y) (b := u) (i := P.length + (n + 1)) (by simp; omega)
      simpa using this
    rw [forDown_succ]
    have hpit : Pit led (P ++ (us ++ [u]) ++ v :: R) (P.length + (n + 1)) (St led (P ++ (us ++ [u]) ++ y :: R)) := by
      have := pit_hole (led := led) (pre := P ++ (us ++ [u])) (post := R) (c := .live y) (key := v) (j := P.length + (n + 1))
        (by simp; omega) rfl
      simpa [St] using this
    refine ends_call hstep (fun f hf => hpit.wreck hp ha hf (Or.inr rfl)) ?_
    rw [show P.length + (n + 1) - 1 = P.length + n by omega]
    refine (ih us (u :: R) u (cnt + 1) hu ?_).mono (fun _ h => h) ?_
    · refine List.Perm.trans ?_ hp
      simp only [List.append_assoc, List.cons_append, List.nil_append]
      exact List.Perm.append_left _ (List.Perm.append_left _ (List.Perm.swap u v R))
    · rintro _ m ⟨z, rfl⟩
      exact ⟨z, by simp⟩

theorem rotate_fault (ha : Allow e h) (start start2 : Nat) (l' : List α) (cnt : Nat) (hp : l'.Perm l) (h1 : start < start2)
    (h2 : start2 < l'.length) :
    Ends (Holes h led l) (fun _ => Same led l) (rotateX k e start start2 (St led l', cnt)) := by
  have hl : l' = l'.take start ++ (l'.take start2).drop start ++ l'[start2] :: l'.drop (start2 + 1) := by
    have e4 : l'.take start2 = l'.take start ++ (l'.take start2).drop start := by
      have := (List.take_append_drop start (l'.take start2)).symm
      rwa [List.take_take, Nat.min_eq_left (by omega)] at this
    rw [← e4, ← List.drop_eq_getElem_cons h2, List.take_append_drop]
  have hP : (l'.take start).length = start := by simp; omega
  have hX : ((l'.take start2).drop start).length = start2 - start := by simp; omega
  have hread : Mem.read start2 (St led l') = .ok l'[start2] (St led l') := read_get h2
  generalize l'.take start = P at hl hP
  generalize (l'.take start2).drop start = X at hl hX
  generalize l'.drop (start2 + 1) = R at hl
  generalize l'[start2] = y at hl hread
  unfold rotateX
  refine ends_call hread (fun f hf => (pit_St l' 0).wreck hp ha hf (Or.inl rfl)) ?_
  have hsh := shift_fault (k := k) (led := led) ha y P (start2 - start) X R y (cnt + 1) hX (hl ▸ hp)
  rw [hP, show start + (start2 - start) = start2 by omega, ← hl] at hsh
  refine ends_bind hsh ?_
  rintro _ m c ⟨z, rfl⟩
  have hperm : (P ++ y :: (X ++ R)).Perm l := by
    refine List.Perm.trans ?_ hp
    rw [hl, List.append_assoc]
    exact List.Perm.append_left _ List.perm_middle.symm
  refine ends_call' (assign_St hP) (fun f hf => ?_) (Same.of hperm)
  have hpit : Pit led (P ++ y :: (X ++ R)) start (St led (P ++ z :: (X ++ R))) := by
    have := pit_hole (led := led) (pre := P) (post := X ++ R) (c := .live z) (key := y) (j := start) hP rfl
    simpa [St] using this
  exact hpit.wreck hperm ha hf (Or.inr rfl)

theorem timLoop_fault (ha : Allow e h) (end_ : Nat) : ∀ (fuel start mid start2 : Nat) (l' : List α) (cnt : Nat), l'.Perm l → start2 = mid + 1 →
    end_ < l'.length → start ≤ start2 → (start2 - start) + (end_ + 1 - start2) < fuel →
    Ends (Holes h led l) (fun _ => Same led l) (timLoopX k e end_ fuel start mid start2 (St led l', cnt))
  | 0, _, _, _, _, _, _, _, _, _, h => by omega
  | fuel + 1, start, mid, start2, l', cnt, hp, h1, h2, h3, hf => by
    unfold timLoopX
    by_cases h : start ≤ mid ∧ start2 ≤ end_
    · rw [if_pos h]
      refine ends_lift (read_get (by omega)) (ends_lift (read_get (by omega)) (ends_cmp (holes_of hp ha) fun r c => ?_))
      cases r with
      | false =>
        rw [if_pos rfl]
        exact timLoop_fault ha end_ fuel (start + 1) mid start2 l' c hp h1 h2 (by omega) (by omega)
      | true =>
        rw [if_neg (by decide)]
        refine ends_bind (rotate_fault ha start start2 l' c hp (by omega) (by omega)) fun _ m c hs => ?_
        obtain ⟨l2, rfl, h5⟩ := hs
        exact timLoop_fault ha end_ fuel (start + 1) (mid + 1) (start2 + 1) l2 c h5 (by omega)
          (by rw [h5.length_eq, ← hp.length_eq]; exact h2) (by omega) (by omega)
    · rw [if_neg h]
      exact Same.of hp

theorem timMerge_fault (ha : Allow e h) (start mid end_ : Nat) (l' : List α) (cnt : Nat) (hp : l'.Perm l) (h1 : start ≤ mid) (h2 : mid < end_)
    (h3 : end_ < l'.length) : Ends (Holes h led l) (fun _ => Same led l) (timMergeX k e start mid end_ (St led l', cnt)) := by
  unfold timMergeX
  refine ends_lift (read_get (by omega)) (ends_lift (read_get (by omega)) (ends_cmp (holes_of hp ha) fun r c => ?_))
  cases r with
  | false =>
    rw [if_pos rfl]
    exact Same.of hp
  | true =>
    rw [if_neg (by decide)]
    exact timLoop_fault ha end_ _ _ _ _ _ _ hp rfl h3 (by omega) (by omega)

theorem mergePass_fault (ha : Allow e h) (n size : Nat) (hsz : 0 < size) : ∀ (fuel left : Nat) (l' : List α) (cnt : Nat), l'.Perm l → n = l'.length →
    n < fuel + left → 0 < fuel → Ends (Holes h led l) (fun _ => Same led l) (mergePassX k e n size fuel left (St led l', cnt))
  | 0, _, _, _, _, _, _, h => by omega
  | fuel + 1, left, l', cnt, hp, hn, hf, _ => by
    unfold mergePassX
    by_cases h : left < n
    · rw [if_pos h]
      generalize hr : (if left + 2 * size - 1 < n - 1 then left + 2 * size - 1 else n - 1) = right
      have hrn : right < l'.length := by rw [← hr]; split <;> omega
      by_cases hm : left + size - 1 < right
      · rw [if_pos hm]
        refine ends_bind (timMerge_fault ha _ _ _ _ _ hp (by omega) hm hrn) fun _ m c hs => ?_
        obtain ⟨l2, rfl, h2⟩ := hs
        exact mergePass_fault ha n size hsz fuel (left + 2 * size) l2 c h2 (by rw [h2.length_eq, ← hp.length_eq]; exact hn) (by omega) (by omega)
      · rw [if_neg hm]
        exact mergePass_fault ha n size hsz fuel (left + 2 * size) l' cnt hp hn (by omega) (by omega)
    · rw [if_neg h]
      exact Same.of hp

theorem sizeLoop_fault (ha : Allow e h) (n : Nat) : ∀ (fuel size : Nat) (l' : List α) (cnt : Nat), l'.Perm l → n = l'.length → 0 < size →
    n < fuel + size → 0 < fuel → Ends (Holes h led l) (fun _ => Same led l) (sizeLoopX k e n fuel size (St led l', cnt))
  | 0, _, _, _, _, _, _, _, h => by omega
  | fuel + 1, size, l', cnt, hp, hn, hsz, hf, _ => by
    unfold sizeLoopX
    by_cases h : size < n
    · rw [if_pos h]
      refine ends_bind (mergePass_fault ha n size hsz (n + 1) 0 l' cnt hp hn (by omega) (by omega)) fun _ m c hs => ?_
      obtain ⟨l2, rfl, h2⟩ := hs
      exact sizeLoop_fault ha n fuel (2 * size) l2 c h2 (by rw [h2.length_eq, ← hp.length_eq]; exact hn) (by omega) (by omega) (by omega)
    · rw [if_neg h]
      exact Same.of hp

theorem runsLoop_fault (ha : Allow e h) (n : Nat) : ∀ (fuel i : Nat) (l' : List α) (cnt : Nat), l'.Perm l → n = l'.length →
    n < fuel + i → 0 < fuel → Ends (Holes h led l) (fun _ => Same led l) (runsLoopX k e n fuel i (St led l', cnt))
  | 0, _, _, _, _, _, _, h => by omega
  | fuel + 1, i, l', cnt, hp, hn, hf, _ => by
    unfold runsLoopX
    by_cases h : i < n
    · rw [if_pos h]
      have hlen : i + 1 + ((if i + 31 < n - 1 then i + 31 else n - 1) - i) ≤ l'.length := by split <;> omega
      refine ends_bind (insRange_fault ha i _ _ l' cnt hp hlen) fun _ m c hs => ?_
      obtain ⟨l2, rfl, h2⟩ := hs
      exact runsLoop_fault ha n fuel (i + 32) l2 c h2 (by rw [h2.length_eq, ← hp.length_eq]; exact hn) (by omega) (by omega)
    · rw [if_neg h]
      exact Same.of hp

theorem sort_fault (ha : Allow e h) (cnt : Nat) : Ends (Holes h led l) (fun _ => Same led l) (sortX k e (St led l, cnt)) := by
  unfold sortX
  refine ends_lift (Cpp.get_run _) ?_
  have hlen : (St led l).cells.length = l.length := by simp [St]
  rw [hlen]
  refine ends_bind (runsLoop_fault ha l.length _ _ l cnt (.refl _) rfl (by omega) (by omega)) fun _ m c hs => ?_
  obtain ⟨l2, rfl, h2⟩ := hs
  exact sizeLoop_fault ha l.length _ _ l2 c h2 h2.length_eq.symm (by omega) (by omega) (by omega)

/-! ### merge sort -/

theorem readRange_fault : ∀ (n i : Nat) (l' : List α) (m' : Mem α) (r : List α) (cnt : Nat), l'.Perm l →
    readRange i n (St led l') = .ok r m' →
    Ends (Same led l) (fun b m => b = r ∧ m = St led l') (readRangeX e i n (St led l', cnt))
  | 0, i, l', m', r, cnt, hp, h => by
    cases h
    exact ⟨rfl, rfl⟩
  | n + 1, i, l', m', r, cnt, hp, h => by
    unfold readRange at h
    obtain ⟨a, m1, h1, h⟩ := bind_ok_inv h
    obtain ⟨rest, m2, h2, h⟩ := bind_ok_inv h
    cases h
    have hm : m1 = St led l' := by
      unfold Mem.read at h1
      split at h1 <;> cases h1
      rfl
    subst hm
    unfold readRangeX
    refine ends_call h1 (fun f hf => Same.of hp) ?_
    refine ends_bind (readRange_fault n (i + 1) l' _ rest _ hp h2) ?_
    rintro b m c ⟨rfl, rfl⟩
    exact ⟨rfl, rfl⟩

theorem _root_.Efp.Spec.Drawn.butOne {m : Mem α} (h : Drawn led l m) : DrawnButOne led l m := by
  obtain ⟨l', rfl, h2, h3⟩ := h
  obtain ⟨_, h5, h6, _⟩ := pit_St (led := led) l' 0
  refine ⟨rfl, h5, h6.trans h2, 0, fun i _ hi => ?_⟩
  rw [← h2] at hi
  exact ⟨l'[i], h3 _ (List.getElem_mem _), by simp [St, hi]⟩

theorem drawn_wreck {l' : List α} (d : Nat) (f : Fault α) (h2 : l'.length = l.length) (h3 : ∀ x ∈ l', x ∈ l) :
    DrawnButOne led l (wreck f none (some d) (St led l')) := by
  obtain ⟨_, h5, h6, _⟩ := pit_St (led := led) l' 0
  show DrawnButOne led l { St led l' with cells := (St led l').cells.modify d f.dst.on }
  refine ⟨rfl, modify_alive _ _ h5, (List.length_modify _ _ _).trans (h6.trans h2), d, fun i hi hl => ?_⟩
  rw [← h2] at hl
  refine ⟨l'[i], h3 _ (List.getElem_mem _), ?_⟩
  have hne : d ≠ i := fun h => hi h.symm
  show ((l'.map Cell.live).modify d f.dst.on)[i]? = _
  rw [List.getElem?_modify]
  simp [hne, hl]

theorem writeAll_fault : ∀ (xs junk pre post : List α) (cnt : Nat), junk.length = xs.length →
    (pre ++ junk ++ post).length = l.length → (∀ x, x ∈ pre ∨ x ∈ junk ∨ x ∈ post ∨ x ∈ xs → x ∈ l) →
    Ends (DrawnButOne led l) (fun _ m => m = St led (pre ++ xs ++ post)) (writeAllX k e pre.length xs (St led (pre ++ junk ++ post), cnt))
  | [], junk, pre, post, cnt, hj, _, _ => by
    have : junk = [] := List.length_eq_zero_iff.mp hj
    subst this
    rfl
  | x :: xs, [], pre, post, cnt, hj, _, _ => by simp at hj
  | x :: xs, z :: junk, pre, post, cnt, hj, hlen, hm => by
    unfold writeAllX
    have hasg : Mem.assign k pre.length x (St led (pre ++ z :: junk ++ post)) = .ok () (St led ((pre ++ [x]) ++ junk ++ post)) := by
      have := assign_St (k := k) (led := led) (pre := pre) (post := junk ++ post) (a := z) (b := x) rfl
      simpa using this
    refine ends_call hasg (fun f _ => drawn_wreck _ f hlen ?_) ?_
    · intro a ha
      apply hm
      simp only [List.mem_append] at ha
      rcases ha with (h | h) | h <;> simp [h]
    · rw [show pre.length + 1 = (pre ++ [x]).length by simp]
      refine (writeAll_fault xs junk (pre ++ [x]) post (cnt + 1) (by simpa using hj) (by simp at hlen ⊢; omega) ?_).mono (fun _ h => h) ?_
      · intro a ha
        apply hm
        simp only [List.mem_append, List.mem_cons, List.not_mem_nil, or_false] at ha ⊢
        rcases ha with (h | h) | h | h | h <;> simp [h]
      · rintro _ m rfl
        simp

theorem mergeTail_fault (xs ys junk pre post : List α) (cnt : Nat) (hj : junk.length = xs.length + ys.length)
    (hlen : (pre ++ junk ++ post).length = l.length)
    (hm : ∀ x, x ∈ pre ∨ x ∈ junk ∨ x ∈ post ∨ x ∈ xs ∨ x ∈ ys → x ∈ l) :
    Ends (DrawnButOne led l) (fun _ m => ∃ zs, m = St led (pre ++ zs ++ post) ∧ zs.Perm (xs ++ ys))
      ((do writeAllX k e pre.length xs; writeAllX k e (pre.length + xs.length) ys : Counted α Unit) (St led (pre ++ junk ++ post), cnt)) := by
  have hjj : junk = junk.take xs.length ++ junk.drop xs.length := (List.take_append_drop _ _).symm
  have h1 : (junk.take xs.length).length = xs.length := by simp; omega
  have h2 : (junk.drop xs.length).length = ys.length := by simp; omega
  generalize junk.take xs.length = j1 at hjj h1
  generalize junk.drop xs.length = j2 at hjj h2
  subst hjj
  have e1 : St led (pre ++ (j1 ++ j2) ++ post) = St led (pre ++ j1 ++ (j2 ++ post)) := by simp
  rw [e1]
  refine ends_bind (writeAll_fault xs j1 pre (j2 ++ post) cnt h1 (by simp at hlen ⊢; omega) ?_) ?_
  · intro a ha
    apply hm
    simp only [List.mem_append] at ha ⊢
    rcases ha with h | h | (h | h) | h <;> simp [h]
  · rintro _ m c rfl
    rw [show pre.length + xs.length = (pre ++ xs).length by simp, show pre ++ xs ++ (j2 ++ post) = pre ++ xs ++ j2 ++ post by simp]
    refine (writeAll_fault ys j2 (pre ++ xs) post c h2 (by simp at hlen ⊢; omega) ?_).mono (fun _ h => h) ?_
    · intro a ha
      apply hm
      simp only [List.mem_append] at ha ⊢
      rcases ha with (h | h) | h | h | h <;> simp [h]
    · rintro _ m rfl
      exact ⟨xs ++ ys, by simp, .refl _⟩

theorem mergeLoop_fault (fuel : Nat) (xs ys junk pre post : List α) (cnt : Nat) (hj : junk.length = xs.length + ys.length)
    (hf : xs.length + ys.length ≤ fuel) (hlen : (pre ++ junk ++ post).length = l.length)
    (hm : ∀ x, x ∈ pre ∨ x ∈ junk ∨ x ∈ post ∨ x ∈ xs ∨ x ∈ ys → x ∈ l) :
    Ends (DrawnButOne led l) (fun _ m => ∃ zs, m = St led (pre ++ zs ++ post) ∧ zs.Perm (xs ++ ys))
      (mergeLoopX k e fuel xs ys pre.length (St led (pre ++ junk ++ post), cnt)) := by
  induction fuel generalizing xs ys junk pre cnt with
  | zero =>
    have hx : xs = [] := List.length_eq_zero_iff.mp (by omega)
    have hy : ys = [] := List.length_eq_zero_iff.mp (by omega)
    subst hx; subst hy
    exact mergeTail_fault [] [] junk pre post cnt hj hlen hm
  | succ fuel ih =>
    cases xs with
    | nil => exact mergeTail_fault [] ys junk pre post cnt hj hlen hm
    | cons x xs =>
      cases ys with
      | nil => exact mergeTail_fault (x :: xs) [] junk pre post cnt hj hlen hm
      | cons y ys =>
        cases junk with
        | nil => simp at hj
        | cons z junk =>
          simp only [List.length_cons] at hj hf
          have hasg : ∀ a, Mem.assign k pre.length a (St led (pre ++ z :: junk ++ post)) =
              .ok () (St led ((pre ++ [a]) ++ junk ++ post)) := by
            intro a
            have := assign_St (k := k) (led := led) (pre := pre) (post := junk ++ post) (a := z) (b := a) rfl
            simpa using this
          have hin : ∀ a ∈ pre ++ z :: junk ++ post, a ∈ l := by
            intro a ha
            apply hm
            simp only [List.mem_append] at ha
            rcases ha with (h | h) | h
            · exact Or.inl h
            · exact Or.inr (Or.inl h)
            · exact Or.inr (Or.inr (Or.inl h))
          unfold mergeLoopX
          refine ends_cmp (Drawn.butOne ⟨_, rfl, hlen, hin⟩) fun r c => ?_
          cases r with
          | true =>
            rw [if_pos rfl]
            refine ends_call (hasg x) (fun f _ => drawn_wreck _ f hlen hin) ?_
            rw [show pre.length + 1 = (pre ++ [x]).length by simp]
            refine (ih xs (y :: ys) junk (pre ++ [x]) (c + 1) (by simp; omega) (by simp; omega) (by simp at hlen ⊢; omega) ?_).mono (fun _ h => h) ?_
            · intro a ha
              apply hm
              simp only [List.mem_append, List.mem_cons, List.not_mem_nil, or_false] at ha ⊢
              rcases ha with (h | h) | h | h | h | h | h <;> simp [h]
            · rintro _ m ⟨zs, h1, h2⟩
              exact ⟨x :: zs, by simpa using h1, by simpa using h2⟩
          | false =>
            rw [if_neg (by decide)]
            refine ends_call (hasg y) (fun f _ => drawn_wreck _ f hlen hin) ?_
            rw [show pre.length + 1 = (pre ++ [y]).length by simp]
            refine (ih (x :: xs) ys junk (pre ++ [y]) (c + 1) (by simp; omega) (by simp; omega) (by simp at hlen ⊢; omega) ?_).mono (fun _ h => h) ?_
            · intro a ha
              apply hm
              simp only [List.mem_append, List.mem_cons, List.not_mem_nil, or_false] at ha ⊢
              rcases ha with (h | h) | h | h | (h | h) | h <;> simp [h]
            · rintro _ m ⟨zs, h1, h2⟩
              exact ⟨y :: zs, by simpa using h1, (h2.cons y).trans
                (by simpa using (List.perm_middle (l₁ := x :: xs) (l₂ := ys) (a := y)).symm)⟩

theorem merge_fault (left middle right : Nat) (l' : List α) (cnt : Nat) (hp : l'.Perm l) (h1 : left ≤ middle) (h2 : middle < right)
    (h3 : right < l'.length) : Ends (DrawnButOne led l) (fun _ => Same led l) (mergeX k e left middle right (St led l', cnt)) := by
  obtain ⟨P, xs, x, y, ys, R, hl, hs, hm, he, _, _⟩ := split_merge l' left middle right h1 h2 h3
  have r1 : readRange left (middle - left + 1) (St led l') = .ok (xs ++ [x]) (St led l') := by
    have := readRange_run (led := led) (xs ++ [x]) P (y :: ys ++ R)
    rw [hl, hs, show middle - P.length + 1 = (xs ++ [x]).length by simp; omega]
    simpa using this
  have r2 : readRange (middle + 1) (right - middle) (St led l') = .ok (y :: ys) (St led l') := by
    have := readRange_run (led := led) (y :: ys) (P ++ (xs ++ [x])) R
    rw [show (P ++ (xs ++ [x])).length = middle + 1 by simp; omega, show (y :: ys).length = right - middle by simp; omega, ← hl] at this
    exact this
  unfold mergeX
  refine ends_bind ((readRange_fault _ _ _ _ _ _ hp r1).mono (fun _ h => h.drawn.butOne) fun _ _ h => h) ?_
  rintro _ _ c ⟨rfl, rfl⟩
  refine ends_bind ((readRange_fault _ _ _ _ _ _ hp r2).mono (fun _ h => h.drawn.butOne) fun _ _ h => h) ?_
  rintro _ _ c ⟨rfl, rfl⟩
  have e : St led l' = St led (P ++ (xs ++ [x] ++ y :: ys) ++ R) := by rw [hl]; simp
  rw [e, hs]
  refine (mergeLoop_fault (l := l) _ (xs ++ [x]) (y :: ys) (xs ++ [x] ++ y :: ys) P R c (by simp; omega) (by simp; omega) ?_ ?_).mono (fun _ h => h) ?_
  · rw [← hp.length_eq, hl]
    simp
  · intro a ha
    rw [← hp.mem_iff, hl]
    simp only [List.mem_append, List.mem_cons, List.not_mem_nil, or_false] at ha ⊢
    rcases ha with h | ((h | h) | h | h) | h | (h | h) | h | h <;> simp [h]
  · rintro _ m ⟨zs, rfl, h5⟩
    refine ⟨_, rfl, List.Perm.trans ?_ hp⟩
    rw [hl, List.append_assoc P (xs ++ [x])]
    exact (List.Perm.append_left _ h5).append_right _

theorem mergeSort_fault : ∀ (fuel left right : Nat) (l' : List α) (cnt : Nat), l'.Perm l → right < l'.length → right - left < fuel →
    Ends (DrawnButOne led l) (fun _ => Same led l) (mergeSortX k e fuel left right (St led l', cnt))
  | 0, _, _, _, _, _, _, h => by omega
  | fuel + 1, left, right, l', cnt, hp, hr, hf => by
    unfold mergeSortX
    by_cases h : left < right
    · rw [if_pos h]
      refine ends_bind (mergeSort_fault fuel left _ l' cnt hp (by omega) (by omega)) fun _ m c hs => ?_
      obtain ⟨l2, rfl, h2⟩ := hs
      have e2 : l2.length = l'.length := by rw [h2.length_eq, hp.length_eq]
      refine ends_bind (mergeSort_fault fuel _ right l2 c h2 (by omega) (by omega)) fun _ m c hs => ?_
      obtain ⟨l3, rfl, h3⟩ := hs
      have e3 : l3.length = l'.length := by rw [h3.length_eq, hp.length_eq]
      exact merge_fault _ _ _ l3 c h3 (by omega) (by omega) (by omega)
    · rw [if_neg h]
      exact Same.of hp

/-! ### without faults the same as the plain sorts -/

/-- the counted program does to the elements what the plain one does -/
def Tracks (pX : Counted α β) (p : Cpp (Mem α) β) : Prop := ∀ m c, ∃ c', pX (m, c) = (p m).mapState (fun x => (x, c'))

section
variable {f : α → α → Bool} (hc : e.comp = always f) (hq : Client.Quiet e)
include hc hq

omit hc hq in
theorem tracks_bind {pX : Counted α γ} {p : Cpp (Mem α) γ} {gX : γ → Counted α β} {g : γ → Cpp (Mem α) β} (h1 : Tracks pX p)
    (h2 : ∀ b, Tracks (gX b) (g b)) : Tracks (pX >>= gX) (p >>= g) := by
  intro m c
  obtain ⟨c1, h3⟩ := h1 m c
  rw [Cpp.bind_run, Cpp.bind_run, h3]
  cases p m with
  | ok b m' => exact h2 b m' c1
  | thrown m' => exact ⟨c1, rfl⟩
  | ub w => exact ⟨c1, rfl⟩

omit hc hq in
theorem tracks_lift (p : Cpp (Mem α) β) : Tracks (lift p) p := by
  intro m c
  refine ⟨c, ?_⟩
  simp only [lift]
  cases p m <;> rfl

omit hc hq in
theorem tracks_pure (b : β) : Tracks (pure b : Counted α β) (pure b) := fun _ c => ⟨c, rfl⟩

omit hc hq in
theorem tracks_ub (w : UB) : Tracks (Cpp.ub w : Counted α β) (Cpp.ub w) := fun _ c => ⟨c, rfl⟩

omit hc in
theorem tracks_call {src? dst? : Option Nat} (p : Cpp (Mem α) β) : Tracks (call e src? dst? p) p := by
  intro m c
  refine ⟨c + 1, ?_⟩
  simp only [call, hq c]
  cases p m <;> rfl

omit hq in
theorem tracks_cmp {a b : α} {gX : Bool → Counted α β} {p : Cpp (Mem α) β} (h : Tracks (gX (f a b)) p) :
    Tracks (cmp e.comp a b >>= gX) p := by
  intro m c
  obtain ⟨c', h'⟩ := h m (c + 1)
  refine ⟨c', ?_⟩
  rw [← h', hc]
  rfl

omit hc in
theorem swap_tracks (i j : Nat) : Tracks (swapX k e i j) (swap k i j) := by
  have : swap k i j = (do let temp ← take k i; moveSlot k i j; put k j temp : Cpp (Mem α) Unit) := by
    funext m
    unfold swap moveSlot
    rw [Cpp.bind_run, Cpp.bind_run]
    cases take k i m with
    | ok b m' => simp only [bind_assoc']
    | thrown m' => rfl
    | ub w => rfl
  rw [this]
  exact tracks_bind (tracks_call hq _) fun temp => tracks_bind (tracks_call hq _) fun _ => tracks_call hq _

omit hq in
theorem pickLarger_tracks (n largest c : Nat) : Tracks (pickLargerC e.comp n largest c) (pickLarger f n largest c) := by
  unfold pickLargerC pickLarger
  by_cases h : c < n
  · rw [if_pos h, if_pos h]
    exact tracks_bind (tracks_lift _) fun a => tracks_bind (tracks_lift _) fun b => tracks_cmp hc (tracks_pure _)
  · rw [if_neg h, if_neg h]
    exact tracks_pure _

theorem heapify_tracks : ∀ (fuel n i : Nat), Tracks (heapifyX k e fuel n i) (heapifyF k f fuel n i)
  | 0, _, _ => tracks_ub _
  | fuel + 1, n, i => by
    unfold heapifyX heapifyF
    refine tracks_bind (pickLarger_tracks hc _ _ _) fun l1 => tracks_bind (pickLarger_tracks hc _ _ _) fun l2 => ?_
    by_cases h : l2 ≠ i
    · rw [if_pos h, if_pos h]
      exact tracks_bind (swap_tracks hq _ _) fun _ => heapify_tracks fuel _ _
    · rw [if_neg h, if_neg h]
      exact tracks_pure _

theorem build_tracks (n : Nat) : ∀ c, Tracks (buildLoopX k e n c) (buildLoop k f n c)
  | 0 => tracks_pure _
  | i + 1 => by
    unfold buildLoopX buildLoop
    exact tracks_bind (heapify_tracks hc hq _ _ _) fun _ => build_tracks n i

theorem extract_tracks : ∀ c, Tracks (extractLoopX k e c) (extractLoop k f c)
  | 0 => tracks_pure _
  | 1 => tracks_pure _
  | i + 2 => by
    unfold extractLoopX extractLoop
    exact tracks_bind (swap_tracks hq _ _) fun _ => tracks_bind (heapify_tracks hc hq _ _ _) fun _ => extract_tracks (i + 1)

theorem heapsort_tracks : Tracks (heapsortX k e) (heapsortBy k f) := by
  unfold heapsortX heapsortBy
  refine tracks_bind (tracks_lift _) fun m => ?_
  dsimp only
  split
  · exact tracks_bind (build_tracks hc hq _ _) fun _ => extract_tracks hc hq _
  · exact extract_tracks hc hq _

theorem insLoop_tracks (key : α) (left : Nat) : ∀ j, Tracks (insLoopX k e key left j) (insLoop k f key left j)
  | 0 => tracks_pure _
  | j + 1 => by
    unfold insLoopX insLoop
    by_cases h : j + 1 > left
    · rw [if_pos h, if_pos h]
      refine tracks_bind (tracks_lift _) fun x => tracks_cmp hc ?_
      cases f key x with
      | false => exact tracks_pure _
      | true =>
        rw [if_pos rfl, if_pos rfl]
        have : (do let y ← Mem.moveOut k j; Mem.assign k (j + 1) y; insLoop k f key left j : Cpp (Mem α) Nat) =
            (do shiftUp k j; insLoop k f key left j) := by
          unfold shiftUp
          rw [bind_assoc']
        rw [this]
        exact tracks_bind (tracks_call hq _) fun _ => insLoop_tracks key left j
    · rw [if_neg h, if_neg h]
      exact tracks_pure _

theorem insOne_tracks (left i : Nat) : Tracks (insOneX k e left i) (insOne k f left i) := by
  unfold insOneX insOne
  exact tracks_bind (tracks_call hq _) fun key => tracks_bind (insLoop_tracks hc hq _ _ _) fun j => tracks_call hq _

theorem insRange_tracks (left right : Nat) : Tracks (insertionRangeX k e left right) (insertionRange k f left right) := by
  have : ∀ n i, Tracks (forUp (insOneX k e left) i n) (forUp (insOne k f left) i n) := by
    intro n
    induction n with
    | zero => intro i; exact tracks_pure _
    | succ n ih =>
      intro i
      unfold forUp
      exact tracks_bind (insOne_tracks hc hq _ _) fun _ => ih _
  exact this _ _

theorem insertionSort_tracks : Tracks (insertionSortX k e) (insertionSortBy k f) := by
  unfold insertionSortX insertionSortBy
  refine tracks_bind (tracks_lift _) fun m => ?_
  split
  · exact insRange_tracks hc hq _ _
  · exact tracks_pure _

theorem partLoop_tracks (pivot : α) : ∀ (n j i : Nat), Tracks (partLoopX k e pivot j n i) (partLoop k f pivot j n i)
  | 0, _, _ => tracks_pure _
  | n + 1, j, i => by
    unfold partLoopX partLoop
    refine tracks_bind (tracks_lift _) fun x => tracks_cmp hc ?_
    cases f x pivot with
    | true => exact tracks_bind (swap_tracks hq _ _) fun _ => partLoop_tracks pivot n _ _
    | false => exact partLoop_tracks pivot n _ _

theorem quicksortF_tracks : ∀ (fuel low high : Nat), Tracks (quicksortFX k e fuel low high) (quicksortF k f fuel low high)
  | 0, _, _ => tracks_ub _
  | fuel + 1, low, high => by
    unfold quicksortFX quicksortF
    by_cases h : low < high
    · rw [if_pos h, if_pos h]
      have hpart : Tracks (partitionX k e low high) (partition k f low high) := by
        unfold partitionX partition
        exact tracks_bind (tracks_call hq _) fun pivot => tracks_bind (partLoop_tracks hc hq _ _ _ _) fun i =>
          tracks_bind (swap_tracks hq _ _) fun _ => tracks_pure _
      refine tracks_bind hpart fun pi => ?_
      dsimp only
      split
      · exact tracks_bind (quicksortF_tracks fuel _ _) fun _ => quicksortF_tracks fuel _ _
      · exact quicksortF_tracks fuel _ _
    · rw [if_neg h, if_neg h]
      exact tracks_pure _

theorem quicksort_tracks : Tracks (quicksortX k e) (quicksortBy k f) := by
  unfold quicksortX quicksortBy
  refine tracks_bind (tracks_lift _) fun m => ?_
  split
  · exact quicksortF_tracks hc hq _ _ _
  · exact tracks_pure _

theorem sortUnstable_tracks : Tracks (sortUnstableX k e) (sortUnstableBy k f) := by
  unfold sortUnstableX sortUnstableBy
  refine tracks_bind (tracks_lift _) fun m => ?_
  split
  · exact tracks_pure _
  · exact tracks_bind (quicksortF_tracks hc hq _ _ _) fun _ => insertionSort_tracks hc hq

omit hc in
theorem shift_tracks : ∀ (n hi : Nat), Tracks (forDown (shiftOneX k e) hi n) (forDown (shiftOne (α := α) k) hi n)
  | 0, _ => tracks_pure _
  | n + 1, hi => by
    unfold forDown
    exact tracks_bind (tracks_call hq _) fun _ => shift_tracks n _

theorem timLoop_tracks (end_ : Nat) : ∀ (fuel start mid start2 : Nat),
    Tracks (timLoopX k e end_ fuel start mid start2) (timLoop k f end_ fuel start mid start2)
  | 0, _, _, _ => tracks_ub _
  | fuel + 1, start, mid, start2 => by
    unfold timLoopX timLoop
    by_cases h : start ≤ mid ∧ start2 ≤ end_
    · rw [if_pos h, if_pos h]
      refine tracks_bind (tracks_lift _) fun b => tracks_bind (tracks_lift _) fun a => tracks_cmp hc ?_
      cases f b a with
      | false => exact timLoop_tracks end_ fuel _ _ _
      | true =>
        rw [if_neg (by decide), if_neg (by decide)]
        have : (do
            let value ← Mem.read start2
            forDown (shiftOne k) start2 (start2 - start)
            Mem.assign k start value
            timLoop k f end_ fuel (start + 1) (mid + 1) (start2 + 1) : Cpp (Mem α) Unit) =
            ((do
              let value ← Mem.read start2
              forDown (shiftOne k) start2 (start2 - start)
              Mem.assign k start value) >>= fun _ => timLoop k f end_ fuel (start + 1) (mid + 1) (start2 + 1)) := by
          simp only [bind_assoc']
        rw [this]
        refine tracks_bind ?_ fun _ => timLoop_tracks end_ fuel _ _ _
        unfold rotateX
        exact tracks_bind (tracks_call hq _) fun value => tracks_bind (shift_tracks hq _ _) fun _ => tracks_call hq _
    · rw [if_neg h, if_neg h]
      exact tracks_pure _

theorem timMerge_tracks (start mid end_ : Nat) : Tracks (timMergeX k e start mid end_) (timMerge k f start mid end_) := by
  unfold timMergeX timMerge
  refine tracks_bind (tracks_lift _) fun a => tracks_bind (tracks_lift _) fun b => tracks_cmp hc ?_
  cases f a b with
  | false => exact tracks_pure _
  | true => exact timLoop_tracks hc hq _ _ _ _ _

theorem runs_tracks (n : Nat) : ∀ (fuel i : Nat), Tracks (runsLoopX k e n fuel i) (runsLoop k f n fuel i)
  | 0, _ => tracks_ub _
  | fuel + 1, i => by
    unfold runsLoopX runsLoop
    by_cases h : i < n
    · rw [if_pos h, if_pos h]
      exact tracks_bind (insRange_tracks hc hq _ _) fun _ => runs_tracks n fuel _
    · rw [if_neg h, if_neg h]
      exact tracks_pure _

theorem mergePass_tracks (n size : Nat) : ∀ (fuel left : Nat), Tracks (mergePassX k e n size fuel left) (mergePass k f n size fuel left)
  | 0, _ => tracks_ub _
  | fuel + 1, left => by
    unfold mergePassX mergePass
    by_cases h : left < n
    · rw [if_pos h, if_pos h]
      dsimp only
      generalize (if left + 2 * size - 1 < n - 1 then left + 2 * size - 1 else n - 1) = right
      by_cases h2 : left + size - 1 < right
      · rw [if_pos h2, if_pos h2]
        exact tracks_bind (timMerge_tracks hc hq _ _ _) fun _ => mergePass_tracks n size fuel _
      · rw [if_neg h2, if_neg h2]
        exact mergePass_tracks n size fuel _
    · rw [if_neg h, if_neg h]
      exact tracks_pure _

theorem sizeLoop_tracks (n : Nat) : ∀ (fuel size : Nat), Tracks (sizeLoopX k e n fuel size) (sizeLoop k f n fuel size)
  | 0, _ => tracks_ub _
  | fuel + 1, size => by
    unfold sizeLoopX sizeLoop
    by_cases h : size < n
    · rw [if_pos h, if_pos h]
      exact tracks_bind (mergePass_tracks hc hq _ _ _ _) fun _ => sizeLoop_tracks n fuel _
    · rw [if_neg h, if_neg h]
      exact tracks_pure _

theorem sort_tracks : Tracks (sortX k e) (sortBy k f) := by
  unfold sortX sortBy
  exact tracks_bind (tracks_lift _) fun m => tracks_bind (runs_tracks hc hq _ _ _) fun _ => sizeLoop_tracks hc hq _ _ _

omit hc in
theorem readRange_tracks : ∀ (n i : Nat), Tracks (readRangeX e i n) (readRange (α := α) i n)
  | 0, _ => tracks_pure _
  | n + 1, i => by
    unfold readRangeX readRange
    exact tracks_bind (tracks_call hq _) fun a => tracks_bind (readRange_tracks n _) fun l => tracks_pure _

omit hc in
theorem writeAll_tracks : ∀ (l : List α) (i : Nat), Tracks (writeAllX k e i l) (writeAll k i l)
  | [], _ => tracks_pure _
  | a :: l, i => by
    unfold writeAllX writeAll
    exact tracks_bind (tracks_call hq _) fun _ => writeAll_tracks l _

theorem mergeLoop_tracks : ∀ (fuel : Nat) (xs ys : List α) (i : Nat), Tracks (mergeLoopX k e fuel xs ys i) (mergeLoop k f fuel xs ys i) := by
  intro fuel
  induction fuel with
  | zero =>
    intro xs ys i
    cases xs <;> cases ys <;>
      first | exact tracks_ub _ | exact tracks_bind (writeAll_tracks hq _ _) fun _ => writeAll_tracks hq _ _
  | succ fuel ih =>
    intro xs ys i
    cases xs with
    | nil => cases ys <;> exact tracks_bind (writeAll_tracks hq _ _) fun _ => writeAll_tracks hq _ _
    | cons x xs =>
      cases ys with
      | nil => exact tracks_bind (writeAll_tracks hq _ _) fun _ => writeAll_tracks hq _ _
      | cons y ys =>
        unfold mergeLoopX mergeLoop
        refine tracks_cmp hc ?_
        cases f x y with
        | true => exact tracks_bind (tracks_call hq _) fun _ => ih _ _ _
        | false => exact tracks_bind (tracks_call hq _) fun _ => ih _ _ _

theorem mergeSort_tracks : ∀ (fuel left right : Nat), Tracks (mergeSortX k e fuel left right) (mergeSortF k f fuel left right)
  | 0, _, _ => tracks_ub _
  | fuel + 1, left, right => by
    unfold mergeSortX mergeSortF
    by_cases h : left < right
    · rw [if_pos h, if_pos h]
      refine tracks_bind (mergeSort_tracks fuel _ _) fun _ => tracks_bind (mergeSort_tracks fuel _ _) fun _ => ?_
      unfold mergeX merge
      exact tracks_bind (readRange_tracks hq _ _) fun _ => tracks_bind (readRange_tracks hq _ _) fun _ => mergeLoop_tracks hc hq _ _ _ _
    · rw [if_neg h, if_neg h]
      exact tracks_pure _

end

end Sorting
end Efp
