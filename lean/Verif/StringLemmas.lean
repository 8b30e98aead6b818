import Verif.VectorHistory
import Verif.Spec.String

/-! Helper lemmas for the `String` model. -/

namespace Efp
namespace Str

open VecS Spec

/-! ### C strings -/

theorem strlen_run {buf : List Nat} (h : 0 ∈ buf) : strlen buf = some (cChars buf).length := by
  induction buf with
  | nil => simp at h
  | cons c cs ih =>
    unfold strlen cChars
    by_cases hc : c = 0
    · simp [hc]
    · have : 0 ∈ cs := (List.mem_cons.mp h).resolve_left (fun h => hc h.symm)
      have h2 := ih this
      simp only [cChars] at h2
      simp [hc, h2]

theorem strlen_none {buf : List Nat} (h : 0 ∉ buf) : strlen buf = none := by
  induction buf with
  | nil => rfl
  | cons c cs ih =>
    simp only [List.mem_cons, not_or] at h
    unfold strlen
    rw [if_neg (fun hc => h.1 hc.symm), ih h.2]; rfl

theorem cChars_prefix (buf : List Nat) : ∃ tail, buf = cChars buf ++ tail :=
  ⟨buf.dropWhile (· ≠ 0), (List.takeWhile_append_dropWhile).symm⟩

theorem cChars_get {buf : List Nat} {i : Nat} (hi : i < (cChars buf).length) :
    buf[i]? = some (cChars buf)[i] := by
  obtain ⟨tail, ht⟩ := cChars_prefix buf
  have : (cChars buf ++ tail)[i]? = some (cChars buf)[i] := by
    rw [List.getElem?_append_left hi, List.getElem?_eq_getElem hi]
  rwa [← ht] at this

theorem readArg_run {σ : Type} {buf : List Nat} {i c : Nat} (h : buf[i]? = some c) :
    readArg (σ := σ) buf i = pure c := by
  unfold readArg; rw [h]

/-! ### reading -/

theorem at_rep {k : Kind} {s : Str} {l : List Nat} (h : Rep k s l) {i : Nat} (hi : i < l.length) :
    at_ i s = .ok l[i] s := by
  obtain ⟨hp, hcap, rest, hcells, hraw⟩ := h.block_of_pos (by rintro rfl; simp at hi)
  have hl : l = l.take i ++ l[i] :: l.drop (i + 1) := by
    rw [← List.drop_eq_getElem_cons hi, List.take_append_drop]
  have hm : s.toMem = ⟨(l.take i).map .live ++ .live l[i] :: ((l.drop (i + 1)).map .live ++ rest), s.led⟩ :=
    toMem_eq (by rw [hcells, ← List.cons_append, ← List.map_cons, ← List.append_assoc,
      ← List.map_append, ← hl])
  unfold at_
  rw [onMem_block hp, hm, Mem.read_mid (by simp; omega), Out.mapState_ok, ← hm]

theorem readOf_rep {k : Kind} {s : Str} {l : List Nat} {σ : Type} (h : Rep k s l) {i : Nat}
    (hi : i < l.length) : readOf (σ := σ) s i = pure l[i] := by
  unfold readOf; rw [at_rep h hi]

/-! ### loops -/

theorem assign_range (body : Nat → Cpp Str Unit) (w : List Nat) (lo : Nat) (pre X post : List (Cell Nat))
    (s : Str) (hp : s.ptr = .block) (hcells : s.cells = pre ++ X ++ post) (hX : X.length = w.length)
    (hbody : ∀ i (hi : i < w.length) (t : Str),
      body (lo + i) t = onMem (Mem.assign .trivial (pre.length + i) w[i]) t) :
    forUp body lo w.length s = .ok () { s with cells := pre ++ w.map .live ++ post } := by
  induction w generalizing lo pre X s with
  | nil =>
    have : X = [] := List.length_eq_zero_iff.mp hX
    subst this
    simp only [List.append_nil] at hcells
    simp [← hcells]
  | cons a w ih =>
    rcases X with _ | ⟨x, X⟩
    · simp at hX
    have hm : s.toMem = ⟨pre ++ x :: (X ++ post), s.led⟩ := toMem_eq (by rw [hcells]; simp)
    have h1 : body lo s = .ok () { s with cells := pre ++ .live a :: (X ++ post) } := by
      have := hbody 0 (by simp) s
      simp only [Nat.add_zero, List.getElem_cons_zero] at this
      rw [this, onMem_block hp, hm, Mem.assign_mid rfl (by simp)]; rfl
    have h2 := ih (lo + 1) (pre ++ [.live a]) X { s with cells := pre ++ .live a :: (X ++ post) } hp
      (by simp) (by simpa using hX) (fun i hi t => by
        have := hbody (i + 1) (by simp; omega) t
        simp only [List.getElem_cons_succ] at this
        rw [show lo + 1 + i = lo + (i + 1) by omega, this]
        simp [Nat.add_assoc, Nat.add_comm 1 i])
    rw [List.length_cons, forUp_succ, Cpp.bind_ok h1, h2]
    simp

theorem push_range (body : Nat → Cpp Str Unit) (w : List Nat) (lo : Nat) {s : Str} {l : List Nat}
    (h : Rep .trivial s l)
    (hbody : ∀ i (hi : i < w.length) (t : Str), body (lo + i) t = pushBack .trivial w[i] t) :
    ∃ t, forUp body lo w.length s = .ok () t ∧ Rep .trivial t (l ++ w) ∧
      (w = [] → t = s) ∧ (w ≠ [] → t.size < t.cap) := by
  induction w generalizing lo s l with
  | nil => exact ⟨s, rfl, by simpa using h, fun _ => rfl, by simp⟩
  | cons a w ih =>
    obtain ⟨u, hu, hur, _, huc, _⟩ := pushBack_run h a
    have h1 : body lo s = .ok () u := by
      have := hbody 0 (by simp) s
      simp only [Nat.add_zero, List.getElem_cons_zero] at this
      rw [this, hu]
    obtain ⟨t, ht, htr, ht0, ht1⟩ := ih (lo + 1) hur (fun i hi t => by
      have := hbody (i + 1) (by simp; omega) t
      simp only [List.getElem_cons_succ] at this
      rw [show lo + 1 + i = lo + (i + 1) by omega, this])
    refine ⟨t, ?_, by simpa using htr, by simp, fun _ => ?_⟩
    · rw [List.length_cons, forUp_succ, Cpp.bind_ok h1, ht]
    · rcases w with _ | ⟨b, w⟩
      · rw [ht0 rfl]; exact huc
      · exact ht1 (by simp)

/-- shift loop of `insert`: opens a gap of `len` cells before `ys` -/
theorem shift_run (len n : Nat) (ys : List Nat) (hn : ys.length = n) (pre mid post : List (Cell Nat))
    (s : Str) (hp : s.ptr = .block) (hcells : s.cells = pre ++ ys.map .live ++ mid ++ post)
    (hmid : mid.length = len) :
    ∃ X, X.length = len ∧ forDown (shiftBody len) (pre.length + n) n s =
      .ok () { s with cells := pre ++ X ++ (ys.map .live ++ post) } := by
  induction n generalizing ys mid post s with
  | zero =>
    have : ys = [] := List.length_eq_zero_iff.mp hn
    subst this
    refine ⟨mid, hmid, ?_⟩
    simp only [forDown_zero, Cpp.pure_run, List.map_nil, List.append_nil, List.nil_append] at hcells ⊢
    simp [← hcells]
  | succ n ih =>
    rcases List.eq_nil_or_concat ys with rfl | ⟨zs, z, rfl⟩
    · simp at hn
    have hzs : zs.length = n := by simpa using hn
    obtain ⟨m', x, hx⟩ : ∃ m' x, Cell.live z :: mid = m' ++ [x] := by
      rcases List.eq_nil_or_concat (Cell.live z :: mid) with h | ⟨m', x, h⟩
      · simp at h
      · exact ⟨m', x, by simpa using h⟩
    have hm'len : m'.length = len := by
      have := congrArg List.length hx
      simp at this; omega
    have hm : s.toMem = ⟨(pre ++ zs.map .live) ++ .live z :: (mid ++ post), s.led⟩ :=
      toMem_eq (by rw [hcells]; simp)
    have h1 : at_ (pre.length + (n + 1) - 1) s = .ok z s := by
      unfold at_
      rw [onMem_block (by exact hp), hm, Mem.read_mid (by simp [hzs])]
      simp only [Out.mapState_ok, ← hm]
    have h2 : onMem (Mem.assign .trivial (pre.length + (n + 1) + len - 1) z) s =
        .ok () { s with cells := pre ++ zs.map .live ++ m' ++ .live z :: post } := by
      have hm' : s.toMem = ⟨(pre ++ zs.map .live ++ m') ++ x :: post, s.led⟩ := by
        rw [hm, ← List.cons_append, hx]; simp
      rw [onMem_block (by exact hp), hm', Mem.assign_mid (by simp [hzs, hm'len]; omega) (by simp)]
      simp
    obtain ⟨X, hX, hrun⟩ := ih zs hzs m' (.live z :: post)
      { s with cells := pre ++ zs.map .live ++ m' ++ .live z :: post } hp rfl hm'len
    refine ⟨X, hX, ?_⟩
    have hb : shiftBody len (pre.length + (n + 1)) s =
        .ok () { s with cells := pre ++ zs.map .live ++ m' ++ .live z :: post } := by
      unfold shiftBody
      rw [Cpp.bind_ok h1, h2]
    rw [forDown_succ, Cpp.bind_ok hb, show pre.length + (n + 1) - 1 = pre.length + n by omega, hrun]
    simp

/-! ### constructors -/

theorem blank_write (body : Nat → Cpp Str Unit) (w : List Nat) (cap : Nat) (hcap : w.length ≤ cap) (led : Ledger)
    (hbody : ∀ i (hi : i < w.length) (t : Str),
      body i t = onMem (Mem.assign .trivial i w[i]) t) :
    ∃ t, forUp body 0 w.length (blank w.length cap led) = .ok () t ∧ Rep .trivial t w ∧ t.ptr = .block ∧
      t.cap = cap ∧ t.cells = w.map .live ++ List.replicate (cap - w.length) .raw := by
  have := assign_range body w 0 [] (List.replicate w.length .raw) (List.replicate (cap - w.length) .raw)
    (blank w.length cap led) rfl (by simp [blank, List.replicate_append_replicate, Nat.add_sub_cancel' hcap])
    (by simp) (fun i hi t => by simpa using hbody i hi t)
  refine ⟨_, this, ?_, rfl, rfl, by simp⟩
  refine rep_block rfl rfl ?_ (rest := List.replicate (cap - w.length) .raw) (by simp) (by simp)
  simp [blank]; omega

theorem take_get {buf : List Nat} {n i : Nat} (hi : i < (buf.take n).length) :
    buf[i]? = some (buf.take n)[i] := by
  rw [List.getElem_take, List.getElem?_eq_getElem]

theorem ofCount_run {buf : List Nat} {n : Nat} (h : n ≤ buf.length) (led : Ledger) :
    ∃ t, ofCount buf n led = .ok () t ∧ Rep .trivial t (buf.take n) ∧ t.ptr = .block ∧ t.cap = n + 1 ∧
      t.cells = (buf.take n).map .live ++ [.raw] := by
  have hl : (buf.take n).length = n := by simp; omega
  have := blank_write (writeBody 0 buf) (buf.take n) (n + 1) (by omega) led (fun i hi t => by
    unfold writeBody
    rw [readArg_run (take_get hi), Cpp.pure_bind, Nat.zero_add])
  rw [hl] at this
  simpa [ofCount] using this

theorem ofCStr_run {buf : List Nat} (h : 0 ∈ buf) (led : Ledger) :
    ∃ t, ofCStr buf led = .ok () t ∧ Rep .trivial t (cChars buf) ∧ t.ptr = .block ∧
      t.cap = (cChars buf).length + 1 ∧ t.cells = (cChars buf).map .live ++ [.raw] := by
  have := blank_write (writeBody 0 buf) (cChars buf) ((cChars buf).length + 1) (by omega) led (fun i hi t => by
    unfold writeBody
    rw [readArg_run (cChars_get hi), Cpp.pure_bind, Nat.zero_add])
  unfold ofCStr
  rw [strlen_run h]
  simpa using this

theorem fill_run (n c : Nat) (led : Ledger) :
    ∃ t, Str.fill n c led = .ok () t ∧ Rep .trivial t (List.replicate n c) ∧ t.ptr = .block ∧ t.cap = n := by
  obtain ⟨t, h1, h2, h3, h4, _⟩ := blank_write (fun i => onMem (Mem.assign .trivial i c)) (List.replicate n c) n (by simp) led
    (fun i hi t => by simp)
  simp only [List.length_replicate] at h1
  exact ⟨t, h1, h2, h3, h4⟩

/-- which constructors leave room for a terminator -/
def initSpare : Str.Init → Bool
  | .fill _ _ => false
  | _ => true

theorem init_run (init : Str.Init) (h : initOk init) :
    ∃ t, init.run = .ok () t ∧ Rep .trivial t (strInit init) ∧
      (initSpare init → Spare t) ∧ (init ≠ .default → t.ptr = .block) := by
  cases init with
  | default => exact ⟨_, rfl, rep_mk0 _ _, fun _ => spare_mk0 _, by simp⟩
  | cstr buf =>
    obtain ⟨t, h1, h2, h3, h4, _⟩ := ofCStr_run h {}
    exact ⟨t, h1, h2, fun _ => .inr (by rw [h2.1, h4]; omega), fun _ => h3⟩
  | count buf n =>
    obtain ⟨t, h1, h2, h3, h4, _⟩ := ofCount_run h {}
    exact ⟨t, h1, h2, fun _ => .inr (by rw [h2.1, h4]; simp; omega), fun _ => h3⟩
  | fill n c =>
    obtain ⟨t, h1, h2, h3, h4⟩ := fill_run n c {}
    exact ⟨t, h1, h2, by simp [initSpare], fun _ => h3⟩

/-! ### operations -/

theorem plusEq_run {s o : Str} {l w : List Nat} (h : Rep .trivial s l) (ho : Rep .trivial o w) :
    ∃ t, plusEq o s = .ok () t ∧ Rep .trivial t (l ++ w) ∧ (w = [] → t = s) ∧ (w ≠ [] → t.size < t.cap) := by
  unfold plusEq
  rw [ho.1]
  refine push_range _ w 0 h (fun i hi t => ?_)
  unfold plusBody
  rw [Nat.zero_add, readOf_rep ho hi, Cpp.pure_bind]

theorem appendC_run {s : Str} {l buf : List Nat} (h : Rep .trivial s l) (hb : 0 ∈ buf) :
    ∃ t, Str.appendC buf s = .ok () t ∧ Rep .trivial t (l ++ cChars buf) ∧ (cChars buf = [] → t = s) ∧
      (cChars buf ≠ [] → t.size < t.cap) := by
  unfold Str.appendC
  rw [strlen_run hb]
  refine push_range _ (cChars buf) 0 h (fun i hi t => ?_)
  unfold appendBody
  rw [Nat.zero_add, readArg_run (cChars_get hi), Cpp.pure_bind]

theorem appendN_run {s : Str} {l : List Nat} (h : Rep .trivial s l) (n c : Nat) :
    ∃ t, Str.appendN n c s = .ok () t ∧ Rep .trivial t (l ++ List.replicate n c) ∧ (n = 0 → t = s) ∧
      (n ≠ 0 → t.size < t.cap) := by
  unfold Str.appendN
  have := push_range (fun _ => pushBack .trivial c) (List.replicate n c) 0 h (fun i hi t => by simp)
  simpa using this

theorem insertAt_run {s : Str} {l : List Nat} (h : Rep .trivial s l) {pos : Nat} (hpos : pos ≤ l.length)
    (buf w : List Nat) (hw : ∀ i (hi : i < w.length), buf[i]? = some w[i])
    (hroom : l.length + w.length ≤ s.cap) :
    ∃ t, insertAt pos buf w.length s = .ok () t ∧ Rep .trivial t (l.take pos ++ w ++ l.drop pos) ∧
      t.cap = s.cap ∧ t.ptr = s.ptr := by
  have hsz := h.1
  obtain ⟨_, hn | ⟨hp, hcap, rest, hcells, _⟩⟩ := h
  · obtain ⟨hp, hc, hcap, rfl⟩ := hn
    have hw0 : w = [] := List.length_eq_zero_iff.mp (by simp at hroom; omega)
    subst hw0
    have : pos = 0 := by simpa using hpos
    subst this
    refine ⟨s, ?_, ⟨by simpa using hsz, .inl ⟨hp, hc, hcap, by simp⟩⟩, rfl, rfl⟩
    simp only [List.length_nil] at hsz
    simp only [insertAt, hsz, List.length_nil, Nat.sub_zero, forDown_zero, forUp_zero, Cpp.pure_bind, Cpp.modify_run,
      Nat.add_zero]
    cases s; simp only at hsz; subst hsz; rfl
  · have hrl : w.length ≤ rest.length := by
      have : s.cap = l.length + rest.length := by rw [hcap, hcells]; simp
      omega
    have hlen : ((l.take pos).map Cell.live).length = pos := by simp; omega
    obtain ⟨X, hX, hsh⟩ := shift_run w.length (l.length - pos) (l.drop pos) (by simp) ((l.take pos).map .live)
      (rest.take w.length) (rest.drop w.length) s hp
      (by rw [← List.map_append, List.take_append_drop, List.append_assoc, List.take_append_drop, hcells])
      (by simp; omega)
    have hwr := assign_range (writeBody pos buf) w 0 ((l.take pos).map .live) X
      ((l.drop pos).map .live ++ rest.drop w.length)
      { s with cells := (l.take pos).map .live ++ X ++ ((l.drop pos).map .live ++ rest.drop w.length) } hp rfl hX
      (fun i hi t => by
        unfold writeBody
        rw [Nat.zero_add, readArg_run (hw i hi), Cpp.pure_bind, hlen])
    refine ⟨{ s with
      cells := (l.take pos).map .live ++ w.map .live ++ ((l.drop pos).map .live ++ rest.drop w.length)
      size := s.size + w.length }, ?_, ?_, rfl, rfl⟩
    · unfold insertAt
      rw [show s.size - pos = l.length - pos by omega,
        show forDown (shiftBody w.length) s.size = forDown (shiftBody w.length)
          (((l.take pos).map Cell.live).length + (l.length - pos)) by rw [hlen, hsz, Nat.add_sub_cancel' hpos]]
      rw [Cpp.bind_ok hsh, Cpp.bind_ok hwr, Cpp.modify_run]
    · refine rep_block hp ?_ ?_ (rest := rest.drop w.length) ?_ (by simp)
      · simp; omega
      · simp only [hcap, hcells]; simp; omega
      · simp

theorem insertC_run {s : Str} {l buf : List Nat} (h : Rep .trivial s l) {pos : Nat} (hpos : pos ≤ l.length)
    (hb : 0 ∈ buf) :
    ∃ t, Str.insertC pos buf s = .ok () t ∧ Rep .trivial t (l.take pos ++ cChars buf ++ l.drop pos) ∧
      (s.ptr = .block → t.ptr = .block) ∧ t.cap = max s.cap (l.length + (cChars buf).length) := by
  have hsz := h.1
  unfold Str.insertC
  rw [if_neg (by omega), strlen_run hb]
  simp only [hsz]
  rw [Cpp.bind_ok (reserve_run h _)]
  split
  · next hg =>
    obtain ⟨t, ht, hr, hc, hp⟩ := insertAt_run (rep_afterRealloc (k := .trivial) s l _ (by omega)) hpos buf
      (cChars buf) (fun i hi => cChars_get hi) (Nat.le_refl _)
    exact ⟨t, ht, hr, fun _ => hp, by rw [hc]; show l.length + (cChars buf).length = _; omega⟩
  · next hg =>
    obtain ⟨t, ht, hr, hc, hp⟩ := insertAt_run h hpos buf (cChars buf) (fun i hi => cChars_get hi) (by omega)
    exact ⟨t, ht, hr, fun h => hp.trans h, by omega⟩

theorem insertCN_run {s : Str} {l buf : List Nat} (h : Rep .trivial s l) {pos n : Nat} (hpos : pos ≤ l.length)
    (hb : n ≤ buf.length) :
    ∃ t, Str.insertCN pos buf n s = .ok () t ∧ Rep .trivial t (l.take pos ++ buf.take n ++ l.drop pos) ∧
      t.size < t.cap := by
  have hsz := h.1
  have hl : (buf.take n).length = n := by simp; omega
  unfold Str.insertCN
  rw [if_neg (by omega)]
  simp only [hsz]
  rw [Cpp.bind_ok (reserve_run h _)]
  split
  · next hg =>
    obtain ⟨t, ht, hr, hc, hp⟩ := insertAt_run (rep_afterRealloc (k := .trivial) s l (l.length + n + 1) (by omega)) hpos buf
      (buf.take n) (fun i hi => take_get hi) (by simp only [afterRealloc]; omega)
    rw [hl] at ht
    refine ⟨t, ht, hr, ?_⟩
    rw [hr.1, hc]; simp [afterRealloc]; omega
  · next hg =>
    obtain ⟨t, ht, hr, hc, hp⟩ := insertAt_run h hpos buf (buf.take n) (fun i hi => take_get hi) (by omega)
    rw [hl] at ht
    refine ⟨t, ht, hr, ?_⟩
    rw [hr.1, hc]; simp; omega

/-! ### histories -/

theorem base_step {s : Str} {l : List Nat} (h : Rep .trivial s l) (op : VecS.Op Nat) :
    match vecStep op l with
    | some l' => ∃ t, op.run .trivial s = .ok () t ∧ Rep .trivial t l' ∧ (Spare s → Spare t) ∧
        (s.ptr = .block → t.ptr = .block)
    | none => op.run .trivial s = .thrown s := by
  have hsz := h.1
  have hle := h.size_le_cap
  cases op with
  | push a =>
    obtain ⟨t, ht, hr, hp, hc, _⟩ := pushBack_run h a
    exact ⟨t, ht, hr, fun _ => .inr hc, fun _ => hp⟩
  | pop =>
    rcases List.eq_nil_or_concat l with rfl | ⟨l, a, rfl⟩
    · simpa [vecStep, VecS.Op.run] using popBack_throw h
    · simp only [List.concat_eq_append] at h hsz ⊢
      obtain ⟨t, ht, hr, hc, hp, _⟩ := popBack_run h
      simp only [vecStep, List.append_eq_nil_iff, List.cons_ne_self, and_false, if_false, List.dropLast_concat]
      refine ⟨t, ht, hr, fun _ => .inr ?_, fun h => hp.trans h⟩
      rw [hr.1, hc]; simp at hsz; omega
  | insert i a =>
    simp only [vecStep]
    by_cases hi : i ≤ l.length
    · rw [if_pos hi]
      obtain ⟨t, ht, hr, hp, hc, _⟩ := insert_run_trivial h a hi
      exact ⟨t, ht, hr, fun hs => .inr (hc (hs.imp And.left id)), fun _ => hp⟩
    · rw [if_neg hi]
      exact insert_throw h a (by omega)
  | erase i =>
    simp only [vecStep]
    by_cases hi : i < l.length
    · rw [if_pos hi, ← List.eraseIdx_eq_take_drop_succ]
      obtain ⟨t, ht, hr, hp, hc, _⟩ := erase_run_trivial h hi
      refine ⟨t, ht, hr, fun _ => .inr ?_, fun h => hp.trans h⟩
      rw [hr.1, hc, List.length_eraseIdx_of_lt hi]; omega
    · rw [if_neg hi]
      exact erase_throw h (by omega)
  | clear =>
    obtain ⟨t, ht, hr, hc, hp, _⟩ := clear_run h
    refine ⟨t, ht, hr, fun hs => ?_, fun h => hp.trans h⟩
    rcases hs with h' | h'
    · left; rw [hc, hp]; exact h'
    · right; rw [hr.1, hc]; simp; omega
  | reserve n =>
    have hrun := reserve_run h n
    by_cases hn : n > s.cap
    · rw [if_pos hn] at hrun
      exact ⟨_, hrun, rep_afterRealloc _ _ _ (by omega), fun _ => .inr (by show l.length < n; omega), fun _ => rfl⟩
    · rw [if_neg hn] at hrun
      exact ⟨s, hrun, h, id, id⟩
  | shrinkToFit =>
    exact ⟨_, shrinkToFit_run h, rep_afterRealloc _ _ _ (by omega),
      fun _ => .inr (by show l.length < l.length + 1; omega), fun _ => rfl⟩
  | shrinkTo n =>
    simp only [vecStep, VecS.Op.run]
    by_cases hn : n ≤ s.size
    · rw [if_pos hn]
      obtain ⟨t, ht, hr, hp, hc, _⟩ := resize_down_trivial h (n := n) (by omega)
      refine ⟨t, ht, hr, fun _ => .inr ?_, fun _ => hp⟩
      rw [hr.1]; simp; omega
    · rw [if_neg hn, List.take_of_length_le (by omega)]
      exact ⟨s, rfl, h, id, id⟩
  | setElem i a =>
    simp only [vecStep, VecS.Op.run]
    by_cases hi : i < s.size
    · rw [if_pos hi]
      obtain ⟨t, ht, hr, hc, hp, _⟩ := setAt_run h a (i := i) (by omega)
      refine ⟨t, ht, hr, fun hs => ?_, fun h => hp.trans h⟩
      rcases hs with h' | h'
      · left; rw [hc, hp]; exact h'
      · right; rw [hr.1, hc]; simp; omega
    · rw [if_neg hi, List.set_eq_of_length_le (by omega)]
      exact ⟨s, rfl, h, id, id⟩

theorem block_of_lt {s : Str} {l : List Nat} (h : Rep .trivial s l) (hc : s.size < s.cap) : s.ptr = .block :=
  (h.split_spare hc).1

theorem grown {s t : Str} {l : List Nat} {P : Prop} (htr : Rep .trivial t l) (h0 : P → t = s)
    (h1 : ¬ P → t.size < t.cap) : (Spare s → Spare t) ∧ (s.ptr = .block → t.ptr = .block) := by
  by_cases hP : P
  · rw [h0 hP]; exact ⟨id, id⟩
  · exact ⟨fun _ => .inr (h1 hP), fun _ => block_of_lt htr (h1 hP)⟩

theorem sop_step {s : Str} {l : List Nat} (h : Rep .trivial s l) (op : SOp) (hop : sopOk op) :
    match strStep op l with
    | some l' => ∃ t, op.run s = .ok () t ∧ Rep .trivial t l' ∧ (keepsSpare op → Spare s → Spare t) ∧
        (s.ptr = .block → t.ptr = .block)
    | none => op.run s = .thrown s := by
  have hsz := h.1
  cases op with
  | base op =>
    have := base_step h op
    simp only [strStep]
    cases hv : vecStep op l with
    | none => rw [hv] at this; exact this
    | some l' =>
      rw [hv] at this
      obtain ⟨t, ht, hr, hs, hp⟩ := this
      exact ⟨t, ht, hr, fun _ => hs, hp⟩
  | appendC buf =>
    obtain ⟨t, ht, hr, h0, h1⟩ := appendC_run h hop
    have := grown hr h0 h1
    exact ⟨t, ht, hr, fun _ => this.1, this.2⟩
  | appendN n c =>
    obtain ⟨t, ht, hr, h0, h1⟩ := appendN_run h n c
    have := grown hr h0 h1
    exact ⟨t, ht, hr, fun _ => this.1, this.2⟩
  | assignC buf =>
    obtain ⟨u, hu, hur, hus, hup⟩ := base_step h .clear
    have hu : VecS.clear .trivial s = .ok () u := hu
    obtain ⟨t, ht, hr, h0, h1⟩ := appendC_run hur hop
    have := grown hr h0 h1
    refine ⟨t, ?_, by simpa using hr, fun _ hs => this.1 (hus hs), fun hs => this.2 (hup hs)⟩
    simp only [SOp.run, Str.assignC]
    rw [Cpp.bind_ok hu, ht]
  | assignN n c =>
    obtain ⟨u, hu, hur, hus, hup⟩ := base_step h .clear
    have hu : VecS.clear .trivial s = .ok () u := hu
    obtain ⟨t, ht, hr, h0, h1⟩ := appendN_run hur n c
    have := grown hr h0 h1
    refine ⟨t, ?_, by simpa using hr, fun _ hs => this.1 (hus hs), fun hs => this.2 (hup hs)⟩
    simp only [SOp.run, Str.assignN]
    rw [Cpp.bind_ok hu, ht]
  | insertC pos buf =>
    simp only [strStep]
    by_cases hpos : pos ≤ l.length
    · rw [if_pos hpos]
      obtain ⟨t, ht, hr, hp, _⟩ := insertC_run h hpos hop
      exact ⟨t, ht, hr, by simp [keepsSpare], hp⟩
    · rw [if_neg hpos]
      simp only [SOp.run, Str.insertC]
      rw [if_pos (by omega)]
  | insertCN pos buf n =>
    simp only [strStep]
    by_cases hpos : pos ≤ l.length
    · rw [if_pos hpos]
      obtain ⟨t, ht, hr, hc⟩ := insertCN_run h hpos hop
      exact ⟨t, ht, hr, fun _ _ => .inr hc, fun _ => block_of_lt hr hc⟩
    · rw [if_neg hpos]
      simp only [SOp.run, Str.insertCN]
      rw [if_pos (by omega)]
  | plus w =>
    obtain ⟨o, ho, hor, _⟩ := ofCount_run (buf := w) (n := w.length) (Nat.le_refl _) {}
    rw [List.take_length] at hor
    obtain ⟨t, ht, hr, h0, h1⟩ := plusEq_run h hor
    have := grown hr h0 h1
    refine ⟨t, ?_, hr, fun _ => this.1, this.2⟩
    simp only [SOp.run, ho, ht]

theorem runOps_run (ops : List SOp) {s : Str} {l : List Nat} (h : Rep .trivial s l) (hops : ∀ op ∈ ops, sopOk op) :
    ∃ t, runOps ops s = .ok (t, (strRun ops l).2) ∧ Rep .trivial t (strRun ops l).1 ∧
      ((∀ op ∈ ops, keepsSpare op) → Spare s → Spare t) ∧ (s.ptr = .block → t.ptr = .block) := by
  induction ops generalizing s l with
  | nil => exact ⟨s, rfl, h, fun _ => id, id⟩
  | cons op ops ih =>
    have hstep := sop_step h op (hops op (by simp))
    simp only [runOps, strRun]
    cases hv : strStep op l with
    | none =>
      rw [hv] at hstep
      obtain ⟨t, ht, hr, hs, hp⟩ := ih h (fun o ho => hops o (by simp [ho]))
      refine ⟨t, ?_, hr, fun hk => hs (fun o ho => hk o (by simp [ho])), hp⟩
      simp only at hstep
      rw [hstep]
      simp only [ht]; rfl
    | some l' =>
      rw [hv] at hstep
      obtain ⟨u, hu, hur, hus, hup⟩ := hstep
      obtain ⟨t, ht, hr, hs, hp⟩ := ih hur (fun o ho => hops o (by simp [ho]))
      refine ⟨t, ?_, hr, fun hk h0 => hs (fun o ho => hk o (by simp [ho])) (hus (hk op (by simp)) h0),
        fun h0 => hp (hup h0)⟩
      rw [hu]; simp only [ht]; rfl

theorem session_run (init : Str.Init) (ops : List SOp) (hi : initOk init) (hops : ∀ op ∈ ops, sopOk op) :
    ∃ t, Str.session init ops = .ok (t, (strRun ops (strInit init)).2) ∧
      Rep .trivial t (strRun ops (strInit init)).1 ∧
      (initSpare init → (∀ op ∈ ops, keepsSpare op) → Spare t) ∧ (init ≠ .default → t.ptr = .block) := by
  obtain ⟨s, hs, hsr, hss, hsp⟩ := init_run init hi
  obtain ⟨t, ht, htr, hts, htp⟩ := runOps_run ops hsr hops
  refine ⟨t, ?_, htr, fun h1 h2 => hts h2 (hss h1), fun h => htp (hsp h)⟩
  simp only [Str.session, hs, ht]

theorem rep_of_reachable {s : Str} {l : List Nat} (h : StrReachable s l) : Rep .trivial s l := by
  obtain ⟨init, ops, evs, hi, hops, hrun, hc⟩ := h
  obtain ⟨t, ht, hr, _⟩ := session_run init ops hi hops
  rw [ht] at hrun
  cases hrun
  have := hr.unique hc
  subst this
  exact hr

end Str
end Efp
