import Verif.StringLemmas
import Verif.ViewLemmas

/-! Helper lemmas for the `String` model, continued: observers. -/

namespace Efp
namespace Str

open VecS Spec

theorem drop_take_get {l : List Nat} {pos n i : Nat} (hi : i < ((l.drop pos).take n).length) :
    ∃ h : pos + i < l.length, ((l.drop pos).take n)[i] = l[pos + i] := by
  simp only [List.length_take, List.length_drop] at hi
  exact ⟨by omega, by simp⟩

theorem substr_run {s : Str} {l : List Nat} (h : Rep .trivial s l) {pos : Nat} (len : Nat) (hpos : pos ≤ l.length)
    (led : Ledger) :
    ∃ t, substr s pos len led = .ok () t ∧ Rep .trivial t ((l.drop pos).take len) ∧ t.ptr = .block ∧ t.size < t.cap := by
  have hsz := h.1
  unfold substr
  rw [if_neg (by omega)]
  have hn : (if len > s.size - pos then s.size - pos else len) = ((l.drop pos).take len).length := by
    simp; split <;> omega
  simp only [hn]
  obtain ⟨t, h1, h2, h3, h4, _⟩ := blank_write (copyBody s pos) ((l.drop pos).take len) _ (Nat.le_succ _) led
    (fun i hi t => by
      obtain ⟨hlt, he⟩ := drop_take_get hi
      unfold copyBody
      rw [readOf_rep h hlt, Cpp.pure_bind, he])
  exact ⟨t, h1, h2, h3, by rw [h2.1, h4]; exact Nat.lt_succ_self _⟩

theorem copyOut_loop (body : Nat → Cpp (List Nat) Unit) (w : List Nat) (lo : Nat) (pre dst post : List Nat)
    (hpre : pre.length = lo) (hd : dst.length = w.length)
    (hbody : ∀ i (hi : i < w.length) (d : List Nat), lo + i < d.length → body (lo + i) d = .ok () (d.set (lo + i) w[i])) :
    forUp body lo w.length (pre ++ dst ++ post) = .ok () (pre ++ w ++ post) := by
  induction w generalizing lo pre dst with
  | nil =>
    have : dst = [] := List.length_eq_zero_iff.mp hd
    subst this; rfl
  | cons a w ih =>
    rcases dst with _ | ⟨x, dst⟩
    · simp at hd
    have h1 : body lo (pre ++ x :: dst ++ post) = .ok () ((pre ++ [a]) ++ dst ++ post) := by
      have := hbody 0 (by simp) (pre ++ x :: dst ++ post) (by simp; omega)
      simp only [Nat.add_zero, List.getElem_cons_zero] at this
      rw [this]; subst hpre; simp
    rw [List.length_cons, forUp_succ, Cpp.bind_ok h1, ih (lo + 1) (pre ++ [a]) dst (by simp [hpre]) (by simpa using hd)]
    · simp
    · intro i hi d hlt
      have := hbody (i + 1) (by simp; omega) d (by omega)
      simp only [List.getElem_cons_succ] at this
      rw [show lo + 1 + i = lo + (i + 1) by omega, this]

theorem copyOut_run {s : Str} {l : List Nat} (h : Rep .trivial s l) {pos : Nat} (count : Nat) (hpos : pos ≤ l.length)
    (dest : List Nat) (hd : ((l.drop pos).take count).length ≤ dest.length) :
    copyOut s count pos dest = .ok ((l.drop pos).take count).length
      ((l.drop pos).take count ++ dest.drop ((l.drop pos).take count).length) := by
  have hsz := h.1
  unfold copyOut
  rw [if_neg (by omega)]
  have hn : (if count > s.size - pos then s.size - pos else count) = ((l.drop pos).take count).length := by
    simp; split <;> omega
  simp only [hn]
  have := copyOut_loop (copyOutBody s pos) ((l.drop pos).take count) 0 []
    (dest.take ((l.drop pos).take count).length) (dest.drop ((l.drop pos).take count).length) rfl
    (by rw [List.length_take]; omega)
    (fun i hi d hlt => by
      obtain ⟨hlt', he⟩ := drop_take_get hi
      unfold copyOutBody
      rw [Nat.zero_add] at hlt ⊢
      rw [readOf_rep h hlt', Cpp.pure_bind, Cpp.bind_ok (Cpp.get_run _), if_pos hlt, he])
  rw [List.nil_append, List.nil_append, List.take_append_drop] at this
  rw [Cpp.bind_ok this]; rfl

/-! ### comparison -/

theorem compare_nat {a b : Nat} (h : a ≠ b) : Ord.compare a b = if a < b then .lt else .gt := by
  by_cases hl : a < b
  · rw [if_pos hl, Nat.compare_eq_lt]; exact hl
  · rw [if_neg hl, Nat.compare_eq_gt]; omega

theorem cmpLoop_run {s o : Str} {l w : List Nat} (h : Rep .trivial s l) (ho : Rep .trivial o w) (pos i : Nat)
    (x y : List Nat) (hx : ∀ j (hj : j < x.length), l[pos + i + j]? = some x[j]) (hy : w.drop i = y)
    (hc : x = y ∨ (¬ x <+: y ∧ ¬ y <+: x)) :
    cmpLoop s o pos i x.length = .ok (lex x y) := by
  induction x generalizing i y with
  | nil =>
    have : y = [] := by
      rcases hc with h | h
      · exact h.symm
      · exact absurd List.nil_prefix h.1
    subst this
    rfl
  | cons a x ih =>
    rcases y with _ | ⟨b, y⟩
    · rcases hc with h | h
      · simp at h
      · exact absurd List.nil_prefix h.2
    have h1 : at_ (pos + i) s = .ok a s := by
      have h0 := hx 0 (by simp)
      simp only [Nat.add_zero, List.getElem_cons_zero] at h0
      obtain ⟨hlt, he⟩ := List.getElem?_eq_some_iff.mp h0
      rw [at_rep h hlt, he]
    have h2 : at_ i o = .ok b o := by
      have h0 : w[i]? = some b := by
        have := congrArg (fun l => l[0]?) hy
        simpa using this
      obtain ⟨hlt, he⟩ := List.getElem?_eq_some_iff.mp h0
      rw [at_rep ho hlt, he]
    simp only [List.length_cons, cmpLoop, h1, h2, lex]
    by_cases hab : a = b
    · subst hab
      rw [if_pos rfl, if_neg (by omega), if_neg (by omega)]
      refine ih (i + 1) y (fun j hj => ?_) ?_ ?_
      · have := hx (j + 1) (by simp; omega)
        simp only [List.getElem_cons_succ] at this
        rw [← this]; congr 1; omega
      · rw [← List.drop_drop, hy]; rfl
      · rcases hc with h | h
        · left; simpa using h
        · right; simpa [List.cons_prefix_cons] using h
    · rw [if_neg hab, compare_nat hab]
      by_cases hl : a < b
      · rw [if_pos hl, if_pos hl]
      · rw [if_neg hl, if_neg hl, if_pos (by omega)]

theorem cmpLoop_prefix {s o : Str} {l w : List Nat} (h : Rep .trivial s l) (ho : Rep .trivial o w) (pos i : Nat)
    (x : List Nat) (hx : ∀ j (hj : j < x.length), l[pos + i + j]? = some x[j]) (hy : x <+: w.drop i) :
    cmpLoop s o pos i x.length = .ok .eq := by
  induction x generalizing i with
  | nil => rfl
  | cons a x ih =>
    obtain ⟨z, hz⟩ := hy
    have h1 : at_ (pos + i) s = .ok a s := by
      have h0 := hx 0 (by simp)
      simp only [Nat.add_zero, List.getElem_cons_zero] at h0
      obtain ⟨hlt, he⟩ := List.getElem?_eq_some_iff.mp h0
      rw [at_rep h hlt, he]
    have h2 : at_ i o = .ok a o := by
      have h0 : w[i]? = some a := by
        have := congrArg (fun l => l[0]?) hz.symm
        simpa using this
      obtain ⟨hlt, he⟩ := List.getElem?_eq_some_iff.mp h0
      rw [at_rep ho hlt, he]
    simp only [List.length_cons, cmpLoop, h1, h2, if_true]
    refine ih (i + 1) (fun j hj => ?_) ⟨z, ?_⟩
    · have := hx (j + 1) (by simp; omega)
      simp only [List.getElem_cons_succ] at this
      rw [← this]; congr 1; omega
    · rw [← List.drop_drop, ← hz]; rfl

/-- the other string ends first, and behind its end lies a cell that was never written -/
theorem cmpLoop_ub {s o : Str} {l w : List Nat} (h : Rep .trivial s l) (ho : Rep .trivial o w) (hop : o.ptr = .block)
    (hraw : o.cells = w.map .live ++ [.raw]) (i : Nat) (x y : List Nat) (hx : l.drop i = y ++ x) (hy : w.drop i = y)
    (hi : i ≤ w.length) (hne : x ≠ []) :
    cmpLoop s o 0 i (y ++ x).length = .error .deadRead := by
  induction y generalizing i with
  | nil =>
    rcases x with _ | ⟨a, x⟩
    · exact absurd rfl hne
    have h1 : at_ (0 + i) s = .ok a s := by
      have h0 : l[i]? = some a := by
        have := congrArg (fun l => l[0]?) hx
        simpa using this
      obtain ⟨hlt, he⟩ := List.getElem?_eq_some_iff.mp h0
      rw [Nat.zero_add, at_rep h hlt, he]
    have hwi : w.length = i := by
      have := congrArg List.length hy
      simp at this; omega
    have h2 : at_ i o = .ub .deadRead := by
      have hm : o.toMem = ⟨w.map .live ++ [.raw], o.led⟩ := toMem_eq hraw
      unfold at_
      rw [onMem_block hop, hm]
      have : (w.map Cell.live ++ [Cell.raw])[i]? = some .raw := by
        rw [List.getElem?_append_right (by simp; omega)]; simp [hwi]
      simp only [Mem.read, this, Out.mapState_ub]
    simp only [List.nil_append, List.length_cons, cmpLoop, h1, h2]
  | cons b y ih =>
    have h1 : at_ (0 + i) s = .ok b s := by
      have h0 : l[i]? = some b := by
        have := congrArg (fun l => l[0]?) hx
        simpa using this
      obtain ⟨hlt, he⟩ := List.getElem?_eq_some_iff.mp h0
      rw [Nat.zero_add, at_rep h hlt, he]
    have h2 : w[i]? = some b := by
      have := congrArg (fun l => l[0]?) hy
      simpa using this
    obtain ⟨hlt, he⟩ := List.getElem?_eq_some_iff.mp h2
    have h3 : at_ i o = .ok b o := by rw [at_rep ho hlt, he]
    simp only [List.cons_append, List.length_cons, cmpLoop, h1, h3, if_true]
    refine ih (i + 1) ?_ ?_ hlt
    · rw [← List.drop_drop, hx]; rfl
    · rw [← List.drop_drop, hy]; rfl

/-! ### c_str -/

theorem cStr_run {s : Str} {l : List Nat} (h : Rep .trivial s l) (hc : s.size < s.cap) :
    ∃ t, cStr s = .ok () t ∧ Rep .trivial t l ∧ t.readFrom 0 (t.size + 1) = .ok (l ++ [0]) ∧ t.size = s.size := by
  have hsz := h.1
  obtain ⟨hp, c, rest, hcells, hcap, _⟩ := h.split_spare hc
  have hm : s.toMem = ⟨l.map .live ++ c :: rest, s.led⟩ := toMem_eq hcells
  have h1 : cStr s = .ok () { s with cells := l.map .live ++ .live 0 :: rest } := by
    unfold cStr
    rw [onMem_block hp, hm, Mem.assign_mid (by simp [hsz]) (by simp)]; rfl
  refine ⟨_, h1, ?_, ?_, rfl⟩
  · refine rep_block hp hsz ?_ (rest := .live 0 :: rest) rfl (by simp)
    simp only [hcap, hcells]; simp
  · have := readFrom_run (s := { s with cells := l.map .live ++ .live 0 :: rest }) (l ++ [0]) [] rest hp (by simp)
    simpa [hsz] using this

theorem cStr_oob {s : Str} {l : List Nat} (h : Rep .trivial s l) (hp : s.ptr = .block) (hc : s.cap ≤ s.size) :
    cStr s = .ub .oob := by
  obtain ⟨hsz, hn | ⟨_, hcap, rest, hcells, _⟩⟩ := h
  · rw [hn.1] at hp; simp at hp
  · unfold cStr
    rw [onMem_block hp]
    have : s.toMem.cells[s.size]? = none := List.getElem?_eq_none (by omega)
    simp only [Mem.assign, this, Out.mapState_ub]

/-! ### comparison with a C string -/

theorem eqArg_run {s : Str} {l buf : List Nat} (h : Rep .trivial s l) (i : Nat) (x y : List Nat)
    (hx : l.drop i = x) (hlen : x.length = y.length) (hy : ∀ j (hj : j < y.length), buf[i + j]? = some y[j]) :
    eqC.eqArg buf i x.length s = .ok (decide (x = y)) s := by
  induction x generalizing i y with
  | nil =>
    have : y = [] := List.length_eq_zero_iff.mp hlen.symm
    subst this; rfl
  | cons a x ih =>
    rcases y with _ | ⟨b, y⟩
    · simp at hlen
    have h1 : at_ i s = .ok a s := by
      have h0 : l[i]? = some a := by
        have := congrArg (fun l => l[0]?) hx
        simpa using this
      obtain ⟨hlt, he⟩ := List.getElem?_eq_some_iff.mp h0
      rw [at_rep h hlt, he]
    have h2 : buf[i]? = some b := hy 0 (by simp)
    rw [List.length_cons]
    simp only [eqC.eqArg]
    rw [Cpp.bind_ok h1, readArg_run h2, Cpp.pure_bind]
    by_cases hab : a = b
    · subst hab
      rw [if_pos rfl, ih (i + 1) y (by rw [← List.drop_drop, hx]; rfl) (by simpa using hlen) (fun j hj => ?_)]
      · simp
      · have := hy (j + 1) (by simp; omega)
        simp only [List.getElem_cons_succ] at this
        rw [← this]; congr 1; omega
    · rw [if_neg hab]
      simp [hab]

theorem eqC_run {s : Str} {l buf : List Nat} (h : Rep .trivial s l) (hp : s.ptr = .block) (hb : 0 ∈ buf) :
    eqC (some buf) s = .ok (decide (l = cChars buf)) s := by
  have hsz := h.1
  unfold eqC
  simp only [hp, strlen_run hb]
  by_cases hl : s.size ≠ (cChars buf).length
  · rw [if_pos hl]
    have : l ≠ cChars buf := by rintro rfl; exact hl hsz
    simp [this]
  · rw [if_neg hl, hsz]
    exact eqArg_run h 0 l (cChars buf) rfl (by omega) (fun j hj => by rw [Nat.zero_add]; exact cChars_get hj)

/-! ### `s += s` -/

theorem selfPlus_ub (d : Nat) {s : Str} {l : List Nat} (h : Rep .trivial s l) (i : Nat) (hi : i < l.length)
    (hd : s.cap - s.size ≤ d) (fuel : Nat) (hf : d < fuel) : selfPlusLoop fuel i s = .ub .wildPtr := by
  induction d generalizing s l i fuel with
  | zero =>
    obtain ⟨f, rfl⟩ : ∃ f, fuel = f + 1 := ⟨fuel - 1, by omega⟩
    have hsz := h.1
    have hle := h.size_le_cap
    unfold selfPlusLoop
    rw [if_pos (by omega)]
    apply Cpp.bind_ub
    unfold pushBackOwn
    rw [Cpp.bind_ok (Cpp.get_run _), Cpp.bind_ok (growPush_run h), Cpp.bind_ok (Cpp.get_run _),
      if_pos (show s.size + 1 ≥ s.cap by omega), if_pos (by simp [afterRealloc])]
  | succ d ih =>
    obtain ⟨f, rfl⟩ : ∃ f, fuel = f + 1 := ⟨fuel - 1, by omega⟩
    have hsz := h.1
    have hle := h.size_le_cap
    unfold selfPlusLoop
    rw [if_pos (by omega)]
    by_cases hg : s.size + 1 ≥ s.cap
    · apply Cpp.bind_ub
      unfold pushBackOwn
      rw [Cpp.bind_ok (Cpp.get_run _), Cpp.bind_ok (growPush_run h), Cpp.bind_ok (Cpp.get_run _), if_pos hg,
        if_pos (by simp [afterRealloc])]
    · obtain ⟨t, ht, hr, hc, hp, hled⟩ := construct_back h (a := l[i]) (by omega)
      have hpush : pushBackOwn .trivial i s = .ok () t := by
        unfold pushBackOwn
        rw [Cpp.bind_ok (Cpp.get_run _), Cpp.bind_ok (growPush_run h), Cpp.bind_ok (Cpp.get_run _), if_neg hg,
          if_neg (by simp)]
        have := at_rep h hi
        unfold at_ at this
        rw [Cpp.bind_ok this, ht]
      rw [Cpp.bind_ok hpush]
      exact ih hr (i + 1) (by simp; omega) (by rw [hc, hr.1]; simp; omega) f (by omega)

/-! ### views -/

open Prelude

theorem viewOfCStr_run {blk : Nat} {buf : List Nat} (h : 0 ∈ buf) {σ : Type} :
    ∃ v, viewOfCStr blk buf = .ok v ∧ (v.contents : Cpp σ (List Nat)) = pure (cChars buf) ∧
      v.size = (cChars buf).length ∧ v.ptr = some ⟨blk, 0, buf⟩ ∧ v.ty = .vector ∧ v.cap = some 0 := by
  unfold viewOfCStr
  rw [strlen_run h]
  refine ⟨_, rfl, ?_, rfl, rfl, rfl, rfl⟩
  obtain ⟨tail, ht⟩ := cChars_prefix buf
  exact View.contents_ok rfl (cChars buf) [] tail (by simpa using ht) rfl rfl

theorem viewOfString_run {blk : Option Nat} {l : List Nat} (h : blk = none → l = []) {σ : Type} :
    ((viewOfString blk l).contents : Cpp σ (List Nat)) = pure l := by
  cases blk with
  | none =>
    have := h rfl
    subst this
    exact View.contents_empty rfl
  | some b => exact View.contents_ok rfl l [] [] (by simp) rfl rfl

theorem viewEqArg_run {v : View Nat} {loc : Loc Nat} (hp : v.ptr = some loc) {buf : List Nat} {σ : Type} (i : Nat)
    (x y : List Nat) (hx : ∀ j (hj : j < x.length), loc.elems[loc.off + (i + j)]? = some x[j])
    (hlen : x.length = y.length) (hy : ∀ j (hj : j < y.length), buf[i + j]? = some y[j]) :
    viewEqC.viewEqArg (σ := σ) v buf i x.length = pure (decide (x = y)) := by
  induction x generalizing i y with
  | nil =>
    have : y = [] := List.length_eq_zero_iff.mp hlen.symm
    subst this; rfl
  | cons a x ih =>
    rcases y with _ | ⟨b, y⟩
    · simp at hlen
    have h1 : loc.elems[loc.off + i]? = some a := hx 0 (by simp)
    have h2 : buf[i]? = some b := hy 0 (by simp)
    rw [List.length_cons]
    simp only [viewEqC.viewEqArg]
    rw [View.at_ok hp h1, Cpp.pure_bind, readArg_run h2, Cpp.pure_bind]
    by_cases hab : a = b
    · subst hab
      rw [if_pos rfl, ih (i + 1) y (fun j hj => ?_) (by simpa using hlen) (fun j hj => ?_)]
      · simp
      · have := hx (j + 1) (by simp; omega)
        simp only [List.getElem_cons_succ] at this
        rw [← this]; congr 1; omega
      · have := hy (j + 1) (by simp; omega)
        simp only [List.getElem_cons_succ] at this
        rw [← this]; congr 1; omega
    · rw [if_neg hab]
      simp [hab]

theorem viewEqC_run {v : View Nat} {loc : Loc Nat} (hp : v.ptr = some loc) {buf l : List Nat} {σ : Type}
    (hb : 0 ∈ buf) (hs : v.size = l.length) (hl : ∀ j (hj : j < l.length), loc.elems[loc.off + j]? = some l[j]) :
    viewEqC (σ := σ) v (some buf) = pure (decide (l = cChars buf)) := by
  unfold viewEqC
  simp only [hp, strlen_run hb]
  by_cases hne : v.size ≠ (cChars buf).length
  · rw [if_pos hne]
    have : l ≠ cChars buf := by rintro rfl; exact hne hs
    simp [this]
  · rw [if_neg hne, hs]
    exact viewEqArg_run hp 0 l (cChars buf) (fun j hj => by rw [Nat.zero_add]; exact hl j hj) (by omega)
      (fun j hj => by rw [Nat.zero_add]; exact cChars_get hj)

end Str
end Efp
