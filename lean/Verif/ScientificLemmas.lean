import Verif.Scientific
import Verif.Spec.Scientific
import Verif.PreludeRuns
import Mathlib.Algebra.Order.Field.Basic
import Mathlib.Tactic.Ring
import Mathlib.Tactic.FieldSimp
import Mathlib.Tactic.Linarith
import Mathlib.Tactic.LinearCombination
import Mathlib.Tactic.Positivity

/-! Lemmas on the statistics functions. -/

namespace Efp.Scientific

open Efp.Prelude Efp.Spec.Scientific

variable {ω K : Type} [Field K] [DecidableEq K]

/-! ### Runs of the building blocks -/

omit [Field K] [DecidableEq K] in
theorem foldlM_pure (f : K → K → K) (z : K) (l : List K) :
    (l.foldlM (fun b a => pure (f b a)) z : Cpp ω K) = pure (l.foldl f z) := by
  induction l generalizing z with
  | nil => rfl
  | cons a l ih => rw [List.foldlM_cons, pure_bind, ih]; rfl

theorem foldl_add (z : K) (l : List K) : l.foldl (fun a b => a + b) z = z + l.sum := by
  induction l generalizing z with
  | nil => simp
  | cons a l ih => rw [List.foldl_cons, ih, List.sum_cons]; ring

theorem sum_run (as : Inp K) (w : ω) : sum as w = .ok as.vals.sum w := by
  rw [sum, Prelude.foldl_eq, foldlM_pure, foldl_add, zero_add]; rfl

theorem div_run {a b : K} (h : b ≠ 0) (w : ω) : div a b w = .ok (a / b) w := by
  rw [div, if_neg h]; rfl

theorem mapM_pure {γ β : Type} (f : γ → β) (l : List γ) :
    (l.mapM (fun x => pure (f x)) : Cpp ω (List β)) = pure (l.map f) := by
  induction l with
  | nil => rfl
  | cons x l ih => rw [List.mapM_cons, ih]; rfl

theorem mapM_congr {γ β : Type} {f g : γ → Cpp ω β} {l : List γ} (h : ∀ x ∈ l, f x = g x) :
    l.mapM f = l.mapM g := by
  induction l with
  | nil => rfl
  | cons x l ih =>
    rw [List.mapM_cons, List.mapM_cons, h x (by simp), ih (fun y hy => h y (by simp [hy]))]

omit [Field K] [DecidableEq K] in
/-- the sequence a `map` of `ass` is stored in -/
def outInp (ass : List (Inp K)) (vs : List K) : Inp K := ⟨naryTy (ass.map Inp.ty), vs, 0, false⟩

omit [Field K] [DecidableEq K] in
theorem outInp_valid {ass : List (Inp K)} (hne : ass ≠ []) (hv : ∀ as ∈ ass, as.valid) {vs : List K}
    (hl : vs.length = shortest (ass.map Inp.vals)) : (outInp ass vs).valid := by
  have h := naryTy_fits (k := .trivial) hne hv (.inl rfl)
  rw [minLength_eq hne hv, ← hl] at h
  have hlt : vs.length < dyn := by
    rw [hl]
    obtain ⟨a, ha⟩ := List.exists_mem_of_ne_nil ass hne
    have h1 := shortest_le (ass.map Inp.vals) a.vals (List.mem_map_of_mem ha)
    have h2 := (hv a ha).lt
    omega
  refine ⟨?_, by simp [outInp]⟩
  show (match naryTy (ass.map Inp.ty) with
    | .array n => vs.length = n ∧ n < dyn
    | .arrVec n => vs.length ≤ n ∧ n < dyn
    | .vector => vs.length < dyn)
  have hcap : ∀ n, naryTy (ass.map Inp.ty) = .arrVec n → n < dyn := by
    intro n hn
    unfold naryTy at hn
    split at hn
    · simp at hn
    · split at hn
      · rename_i hall
        simp only [SeqTy.arrVec.injEq] at hn
        rw [← hn]
        obtain ⟨a, ha⟩ := List.exists_mem_of_ne_nil ass hne
        have hb : a.ty.ctCap ≠ dyn := by
          have := List.all_eq_true.mp hall a.ty (List.mem_map_of_mem ha)
          simpa [SeqTy.isStaticCap] using this
        have hv' := hv a ha
        have h3 : a.ty.ctCap < dyn := by
          unfold Inp.valid at hv'
          revert hv' hb
          cases a.ty <;> simp [SeqTy.ctCap] <;> omega
        have h4 : ∀ (l : List Nat) (z : Nat), l.foldl Nat.min z ≤ z ∧ ∀ x ∈ l, l.foldl Nat.min z ≤ x := by
          intro l
          induction l with
          | nil => intro z; simp
          | cons y l ih =>
            intro z
            have h1 := (ih (Nat.min z y)).1
            have h2 := (ih (Nat.min z y)).2
            have h5 : Nat.min z y ≤ z := Nat.min_le_left _ _
            have h6 : Nat.min z y ≤ y := Nat.min_le_right _ _
            rw [List.foldl_cons]
            refine ⟨by omega, fun x hx => ?_⟩
            rcases List.mem_cons.mp hx with rfl | hx
            · omega
            · exact h2 x hx
        have := (h4 ((ass.map Inp.ty).map SeqTy.ctCap) dyn).2 a.ty.ctCap
          (List.mem_map_of_mem (List.mem_map_of_mem ha))
        exact Nat.lt_of_le_of_lt this h3
      · simp at hn
  revert h hcap
  unfold Fits
  cases naryTy (ass.map Inp.ty) with
  | array m => intro h _; simp only at h ⊢; omega
  | arrVec m => intro h hc; simp only at h ⊢; exact ⟨h.1, hc m rfl⟩
  | vector => intro _ _; exact hlt

theorem map1_run (f : K → K) {as : Inp K} (hv : as.valid) (w : ω) :
    map1 f as w = .ok (outInp [as] (as.vals.map f)) w ∧ (outInp [as] (as.vals.map f)).valid := by
  have hv' : ∀ a ∈ [as], a.valid := by simpa using hv
  have h := map_gives (ω := ω) (k := .trivial) (0 : K) (fun1 f) (ass := [as]) (by simp) hv' (.inl rfl) w
  have e : (rows ([as].map Inp.vals)).mapM (fun1 f) = (pure (as.vals.map f) : Cpp ω (List K)) := by
    rw [List.map_cons, List.map_nil, show rows [as.vals] = as.vals.map (fun a => [a]) from row_singleton _,
      List.mapM_map]
    exact mapM_pure f as.vals
  rw [e] at h
  obtain ⟨r, h1, h2, h3⟩ := h
  refine ⟨?_, outInp_valid (by simp) hv' (by simp [shortest])⟩
  rw [map1, Cpp.bind_ok h1, asInp, h2.contents, h3]
  rfl

omit [Field K] [DecidableEq K] in
theorem rows_two (xs ys : List K) : rows [xs, ys] = (xs.zip ys).map (fun p => [p.1, p.2]) := by
  apply List.ext_getElem?
  intro i
  simp only [rows, List.getElem?_map, shortest]
  by_cases hi : i < min xs.length ys.length
  · have h1 : i < xs.length := by omega
    have h2 : i < ys.length := by omega
    have hz : (xs.zip ys)[i]? = some (xs[i], ys[i]) := by
      simp [List.getElem?_zip_eq_some, h1, h2]
    simp [List.getElem?_range hi, row, h1, h2, hz]
  · have : (xs.zip ys)[i]? = none := by simp; omega
    rw [this, List.getElem?_eq_none (by simpa using by omega)]
    rfl

theorem map2_run (f : K → K → K) {as bs : Inp K} (hva : as.valid) (hvb : bs.valid) (w : ω) :
    map2 f as bs w = .ok (outInp [as, bs] ((as.vals.zip bs.vals).map fun p => f p.1 p.2)) w
    ∧ (outInp [as, bs] ((as.vals.zip bs.vals).map fun p => f p.1 p.2)).valid := by
  have hv' : ∀ a ∈ [as, bs], a.valid := by simp [hva, hvb]
  have h := map_gives (ω := ω) (k := .trivial) (0 : K) (fun2 f) (ass := [as, bs]) (by simp) hv' (.inl rfl) w
  have e : (rows ([as, bs].map Inp.vals)).mapM (fun2 f)
      = (pure ((as.vals.zip bs.vals).map fun p => f p.1 p.2) : Cpp ω (List K)) := by
    rw [List.map_cons, List.map_cons, List.map_nil, rows_two, List.mapM_map]
    exact mapM_pure (fun p : K × K => f p.1 p.2) _
  rw [e] at h
  obtain ⟨r, h1, h2, h3⟩ := h
  refine ⟨?_, outInp_valid (by simp) hv' (by simp [shortest])⟩
  rw [map2, Cpp.bind_ok h1, asInp, h2.contents, h3]
  rfl

theorem mapIx_run (f : Nat → K → K) {as : Inp K} (hv : as.valid) (w : ω) :
    mapIx f as w = .ok (outInp [as] (as.vals.mapIdx f)) w ∧ (outInp [as] (as.vals.mapIdx f)).valid := by
  have hv' : ∀ a ∈ [as], a.valid := by simpa using hv
  have h := mapWithIndex_gives (ω := ω) (k := .trivial) (0 : K) (fun i => fun1 (f i)) (ass := [as]) (by simp)
    hv' (.inl rfl) w
  have e : ((List.range (shortest ([as].map Inp.vals))).mapM
        (fun i => fun1 (f i) (row i ([as].map Inp.vals))) : Cpp ω (List K))
      = pure (as.vals.mapIdx f) := by
    have h1 : ∀ i ∈ List.range (shortest ([as].map Inp.vals)),
        (fun1 (f i) (row i ([as].map Inp.vals)) : Cpp ω K) = pure (f i (as.vals[i]?.getD 0)) := by
      intro i hi
      have hi' : i < as.vals.length := by simpa [shortest] using hi
      simp [row, hi', fun1]
    rw [mapM_congr h1, mapM_pure]
    congr 1
    apply List.ext_getElem?
    intro i
    simp only [List.getElem?_map, List.map_cons, List.map_nil, shortest, List.getElem?_mapIdx]
    by_cases hi : i < as.vals.length
    · simp [hi]
    · simp [hi]
  rw [e] at h
  obtain ⟨r, h1, h2, h3⟩ := h
  refine ⟨?_, outInp_valid (by simp) hv' (by simp [shortest])⟩
  rw [mapIx, Cpp.bind_ok h1, asInp, h2.contents, h3]
  rfl

theorem mean_run [CharZero K] {as : Inp K} (hne : as.vals ≠ []) (w : ω) :
    mean as w = .ok (avg as.vals) w := by
  rw [mean, Cpp.bind_ok (sum_run as w), div_run]
  · rfl
  · rw [length, Nat.cast_ne_zero]
    exact fun h => hne (List.length_eq_zero_iff.mp h)

/-! ### Runs of the functions -/

omit [DecidableEq K] in
theorem length_ne [CharZero K] {xs : List K} (h : xs ≠ []) : (xs.length : K) ≠ 0 := by
  rw [Nat.cast_ne_zero]
  exact fun h' => h (List.length_eq_zero_iff.mp h')

theorem subLag_eq {n k : Nat} (hk : k ≤ n) (hn : n < 2 ^ 64) : subLag n (k : Int) = n - k := by
  unfold subLag
  rw [Int.emod_eq_of_lt (by omega) (by omega)]
  omega

theorem valid_lt {as : Inp K} (hv : as.valid) : as.vals.length < 2 ^ 64 - 1 := hv.lt

theorem square_fun (m : K) : (fun x : K => square (x - m)) = fun x => (x - m) ^ 2 := by
  funext x
  rw [square, sq]

theorem div_choice {bessel : Bool} {n : Nat} (h1 : 1 ≤ n) (hn : n < 2 ^ 64) (hd : divisor K bessel n ≠ 0) (s : K)
    (w : ω) :
    (if bessel then div s (subLag n 1 : K) else div s (n : K) : Cpp ω K) w = .ok (s / divisor K bessel n) w := by
  cases bessel with
  | true =>
    have := subLag_eq (k := 1) h1 hn
    simp only [Nat.cast_one] at this
    simp only [if_true, divisor, this] at hd ⊢
    exact div_run hd w
  | false =>
    simp only [Bool.false_eq_true, if_false, divisor] at hd ⊢
    exact div_run hd w

theorem variance_run [CharZero K] {as : Inp K} (hv : as.valid) (hne : as.vals ≠ []) (bessel : Bool)
    (hd : divisor K bessel as.vals.length ≠ 0) (w : ω) :
    variance bessel as w = .ok (sqDev as.vals / divisor K bessel as.vals.length) w := by
  have hpos : 1 ≤ as.vals.length := List.length_pos_iff.mpr hne
  have hlt := valid_lt hv
  rw [variance, Cpp.bind_ok (mean_run hne w), Cpp.bind_ok (map1_run _ hv w).1,
    Cpp.bind_ok (sum_run _ w), length, div_choice hpos (by omega) hd, square_fun]
  rfl

theorem covariance_run [CharZero K] {as bs : Inp K} (hva : as.valid) (hvb : bs.valid) (hna : as.vals ≠ [])
    (hnb : bs.vals ≠ []) (bessel : Bool) (hd : divisor K bessel as.vals.length ≠ 0) (w : ω) :
    covariance bessel as bs w = .ok (coDev as.vals bs.vals / divisor K bessel as.vals.length) w := by
  have hpos : 1 ≤ as.vals.length := List.length_pos_iff.mpr hna
  have hlt := valid_lt hva
  rw [covariance, Cpp.bind_ok (mean_run hna w), Cpp.bind_ok (mean_run hnb w),
    Cpp.bind_ok (map2_run _ hva hvb w).1, Cpp.bind_ok (sum_run _ w), length, div_choice hpos (by omega) hd]
  rfl

theorem removeDc_run [CharZero K] {as : Inp K} (hv : as.valid) (hne : as.vals ≠ []) (w : ω) :
    removeDc as w = .ok (outInp [as] (as.vals.map fun x => x - avg as.vals)) w := by
  rw [removeDc, Cpp.bind_ok (mean_run hne w), (map1_run _ hv w).1]

theorem sqErr_fun (xs ys : List K) :
    ((xs.zip ys).map fun p => square (p.1 - p.2)).sum = sqErr xs ys := by
  rw [sqErr]
  congr 1
  apply List.map_congr_left
  intro p _
  rw [square, sq]

theorem sse_run {as bs : Inp K} (hva : as.valid) (hvb : bs.valid) (w : ω) :
    sse as bs w = .ok (sqErr as.vals bs.vals) w := by
  rw [sse, Cpp.bind_ok (map2_run _ hva hvb w).1, sum_run]
  show Out.ok ((as.vals.zip bs.vals).map fun p => square (p.1 - p.2)).sum w = _
  rw [sqErr_fun]

theorem mse_run [CharZero K] {as bs : Inp K} (hva : as.valid) (hvb : bs.valid) (hna : as.vals ≠ [])
    (hnb : bs.vals ≠ []) (w : ω) :
    mse as bs w = .ok (sqErr as.vals bs.vals / (min as.vals.length bs.vals.length : Nat)) w := by
  have hne : (outInp [as, bs] ((as.vals.zip bs.vals).map fun p => square (p.1 - p.2))).vals ≠ [] := by
    show (as.vals.zip bs.vals).map _ ≠ []
    intro h
    have := congrArg List.length h
    have h1 := List.length_pos_iff.mpr hna
    have h2 := List.length_pos_iff.mpr hnb
    rw [List.length_map, List.length_zip, List.length_nil] at this
    omega
  rw [mse, Cpp.bind_ok (map2_run _ hva hvb w).1, mean_run hne, avg]
  show Out.ok (((as.vals.zip bs.vals).map fun p => square (p.1 - p.2)).sum
    / ((((as.vals.zip bs.vals).map fun p => square (p.1 - p.2)).length : Nat) : K)) w = _
  rw [sqErr_fun, List.length_map, List.length_zip]

theorem linearRegression_run [CharZero K] {as bs : Inp K} (hva : as.valid) (hvb : bs.valid) (hna : as.vals ≠ [])
    (hnb : bs.vals ≠ []) (hd : sqDev as.vals ≠ 0) (w : ω) :
    linearRegression as bs w = .ok (coDev as.vals bs.vals / sqDev as.vals,
      avg bs.vals - coDev as.vals bs.vals / sqDev as.vals * avg as.vals) w := by
  have h1 := map1_run (ω := ω) (fun x => x - avg as.vals) hva w
  have h2 := map1_run (ω := ω) (fun x => x - avg bs.vals) hvb w
  have e1 : ((((as.vals.map fun x => x - avg as.vals).zip (bs.vals.map fun x => x - avg bs.vals)).map
      fun p => p.1 * p.2).sum) = coDev as.vals bs.vals := by
    rw [coDev, List.zip_map, List.map_map]; rfl
  have e2 : (((as.vals.map fun x => x - avg as.vals).map square).sum) = sqDev as.vals := by
    rw [sqDev, List.map_map]
    congr 1
    apply List.map_congr_left
    intro x _
    show square _ = _
    rw [square, sq]
  rw [linearRegression, Cpp.bind_ok (mean_run hna w), Cpp.bind_ok (mean_run hnb w), Cpp.bind_ok h1.1,
    Cpp.bind_ok h2.1, Cpp.bind_ok (map2_run _ h1.2 h2.2 w).1, Cpp.bind_ok (sum_run _ w),
    Cpp.bind_ok (map1_run _ h1.2 w).1, Cpp.bind_ok (sum_run _ w)]
  show (do let beta1 ← div _ _; pure _ : Cpp ω (K × K)) w = _
  simp only [outInp, e1, e2]
  rw [Cpp.bind_ok (div_run hd w)]
  rfl

/-! ### Autocovariance -/

theorem toInt32_eq {n : Nat} (h : n < 2 ^ 31) : toInt32 n = n := by
  unfold toInt32
  rw [Int.emod_eq_of_lt (by omega) (by omega)]
  omega

theorem nthInt_run {as : Inp K} {i : Nat} {x : K} (h : as.vals[i]? = some x) :
    (nthInt (i : Int) as : Cpp ω K) = pure x := by
  unfold nthInt
  rw [if_pos (by omega), Int.toNat_natCast, nth, h]

theorem autoBody_run {as : Inp K} (m : K) {lag i : Nat} (hlen : as.vals.length < 2 ^ 31) {x y : K}
    (hx : as.vals[i]? = some x) (hy : as.vals[i + lag]? = some y) (s : K) (w : ω) :
    autoBody as m (lag : Int) i (s, w) = .ok () (s + (x - m) * (y - m), w) := by
  have hi : i < 2 ^ 31 := by have := (List.getElem?_eq_some_iff.mp hx).1; omega
  unfold autoBody
  rw [toInt32_eq hi, nthInt_run hx, pure_bind]
  have : ((i : Int) + (lag : Int)) = ((i + lag : Nat) : Int) := by omega
  rw [this, nthInt_run hy, pure_bind]

theorem autoLoop_run {as : Inp K} (m : K) {lag : Nat} (hlen : as.vals.length < 2 ^ 31) (hlag : lag ≤ as.vals.length)
    (w : ω) :
    forIndex (autoBody as m (lag : Int)) (as.vals.length - lag) ((0 : K), w)
      = .ok () (((as.vals.zip (as.vals.drop lag)).map fun p => (p.1 - m) * (p.2 - m)).sum, w) := by
  let prods := (as.vals.zip (as.vals.drop lag)).map fun p => (p.1 - m) * (p.2 - m)
  have hpl : prods.length = as.vals.length - lag := by simp [prods]
  obtain ⟨s', h1, h2⟩ := forUp_inv (body := autoBody as m (lag : Int))
    (fun i (s : K × ω) => s = ((prods.take i).sum, w)) 0 (as.vals.length - lag) ((0 : K), w) (by simp)
    (by
      rintro i t _ hi rfl
      have hi1 : i < as.vals.length := by omega
      have hi2 : i + lag < as.vals.length := by omega
      refine ⟨_, autoBody_run m hlen (List.getElem?_eq_getElem hi1) (List.getElem?_eq_getElem hi2) _ w, ?_⟩
      have hip : i < prods.length := by omega
      rw [List.take_add_one, List.getElem?_eq_getElem hip, List.sum_append]
      simp [prods, Nat.add_comm lag i])
  rw [forIndex, h1, h2, Nat.zero_add, ← hpl, List.take_length]

theorem toSize_eq {n : Nat} (h : n < 2 ^ 64) : toSize (n : Int) = n := by
  unfold toSize
  rw [Int.emod_eq_of_lt (by omega) (by omega)]
  omega

theorem autocovariance_run [CharZero K] {as : Inp K} (hne : as.vals ≠ []) (hlen : as.vals.length < 2 ^ 31)
    {lag : Nat} (hlag : lag < as.vals.length) (bessel adjusted : Bool)
    (hd : autoDivisor K bessel adjusted as.vals.length lag ≠ 0) (w : ω) :
    autocovariance bessel adjusted as lag w
      = .ok (lagDev lag as.vals / autoDivisor K bessel adjusted as.vals.length lag) w := by
  have hsub : subLag as.vals.length (lag : Int) = as.vals.length - lag := subLag_eq (by omega) (by omega)
  rw [autocovariance, Cpp.bind_ok (mean_run hne w)]
  simp only [length, hsub]
  rw [toInt32_eq (by omega), toSize_eq (by omega)]
  have hs : autoSum as (avg as.vals) (lag : Int) (as.vals.length - lag) w = .ok (lagDev lag as.vals) w := by
    rw [autoSum, autoLoop_run _ hlen (by omega)]; rfl
  rw [Cpp.bind_ok hs]
  cases adjusted with
  | false =>
    simp only [Bool.false_eq_true, if_false, autoDivisor] at hd ⊢
    exact div_choice (by omega) (by omega) hd _ w
  | true =>
    simp only [if_true, autoDivisor] at hd ⊢
    cases bessel with
    | false =>
      simp only [Bool.false_eq_true, if_false, divisor] at hd ⊢
      exact div_run hd w
    | true =>
      have : subLag as.vals.length ((lag : Int) + 1) = as.vals.length - lag - 1 := by
        have := subLag_eq (n := as.vals.length) (k := lag + 1) (by omega) (by omega)
        push_cast at this
        rw [this]; omega
      simp only [if_true, divisor, this] at hd ⊢
      exact div_run hd w

/-- outside `0 ≤ lag ≤ n` the loop reads outside the sequence -/
theorem autocovariance_ub [CharZero K] {as : Inp K} (hne : as.vals ≠ []) (hlen : as.vals.length < 2 ^ 31)
    {lag : Int} (h31 : -2 ^ 31 ≤ lag ∧ lag < 2 ^ 31) (hlag : lag < 0 ∨ (as.vals.length : Int) < lag)
    (bessel adjusted : Bool) (w : ω) :
    autocovariance bessel adjusted as lag w = .ub .oob := by
  have hpos : 0 < as.vals.length := List.length_pos_iff.mpr hne
  have hcount : toSize (toInt32 (subLag as.vals.length lag)) ≠ 0 := by
    unfold toSize toInt32 subLag
    omega
  have hbody : ∀ m (s : K × ω), autoBody as m lag 0 s = .ub .oob := by
    intro m s
    unfold autoBody
    rw [toInt32_eq (by omega), nthInt_run (List.getElem?_eq_getElem hpos), pure_bind]
    have : nthInt (((0 : Nat) : Int) + lag) as = (Cpp.ub .oob : Cpp (K × ω) K) := by
      unfold nthInt
      split
      · rw [nth, List.getElem?_eq_none (by omega)]
      · rfl
    rw [this]
    rfl
  have hs : ∀ c, c ≠ 0 → autoSum as (avg as.vals) lag c w = .ub .oob := by
    intro c hc
    obtain ⟨k, rfl⟩ := Nat.exists_eq_succ_of_ne_zero hc
    rw [autoSum, forIndex, Nat.succ_eq_add_one, forUp_succ, Cpp.bind_run, hbody]
  rw [autocovariance, Cpp.bind_ok (mean_run hne w)]
  simp only [length]
  exact Cpp.bind_ub (hs _ hcount)

end Efp.Scientific
