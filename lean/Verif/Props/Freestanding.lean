import Verif.Freestanding

/-!
# C159: copying bytes; C160: the texts of errors, in freestanding and hosted builds

`Freestanding.memcpyLoop` is `_memcpy` of a freestanding build, `memcpyStd` that of a hosted one.  `runs`, `whatText` are programs with
errors in a freestanding build, `runsStd`, `whatTextStd` in a hosted one.
-/

namespace Efp.Props

open Efp.Freestanding

variable {α : Type}

/-! ## C159 -/

/-- C159 as stated: the bytes at `dest` are what the bytes at `src` were, all others are as before, and `dest` is returned -/
def Copied (dest src size : Nat) (m : List α) (o : Out (List α) Nat) : Prop :=
  ∃ m', o = .ok dest m' ∧ m'.length = m.length ∧ ∀ j, m'[j]? = if dest ≤ j ∧ j < dest + size then m[src + (j - dest)]? else m[j]?

theorem Freestanding.copyLoop_run (dest src n : Nat) (m : List α) (g : Nat → Nat) (hd : dest + n ≤ m.length)
    (hg : ∀ i < n, (if dest ≤ src + i ∧ src + i < dest + i then g (src + i - dest) else src + i) = g i)
    (hb : ∀ i < n, g i < m.length) :
    ∀ (r i : Nat) (mi : List α), i + r = n → mi.length = m.length →
      (∀ j, mi[j]? = if dest ≤ j ∧ j < dest + i then m[g (j - dest)]? else m[j]?) →
      ∃ m', copyLoop dest src r i mi = .ok () m' ∧ m'.length = m.length ∧
        ∀ j, m'[j]? = if dest ≤ j ∧ j < dest + n then m[g (j - dest)]? else m[j]? := by
  intro r
  induction r with
  | zero =>
    intro i mi hi hl h
    have : i = n := by omega
    subst this
    exact ⟨mi, rfl, hl, h⟩
  | succ r ih =>
    intro i mi hi hl h
    have hread : mi[src + i]? = m[g i]? := by
      rw [h, ← hg i (by omega)]
      split <;> rfl
    have hgi := hb i (by omega)
    rw [List.getElem?_eq_getElem hgi] at hread
    have e : copyLoop dest src (r + 1) i mi = copyLoop dest src r (i + 1) (mi.set (dest + i) m[g i]) := by
      show (match mi[src + i]? with
        | some b => if dest + i < mi.length then (do Cpp.set (mi.set (dest + i) b); copyLoop dest src r (i + 1)) else Cpp.ub .oob
        | none => Cpp.ub .oob : Cpp (List α) Unit) mi = _
      rw [hread]
      simp only
      rw [if_pos (by omega)]
      rfl
    rw [e]
    refine ih (i + 1) _ (by omega) (by rw [List.length_set, hl]) fun j => ?_
    rw [List.getElem?_set]
    by_cases hj : dest + i = j
    · subst hj
      rw [if_pos rfl, if_pos (by omega), if_pos (by omega), show dest + i - dest = i by omega, List.getElem?_eq_getElem hgi]
    · rw [if_neg hj, h]
      by_cases h1 : dest ≤ j ∧ j < dest + i
      · rw [if_pos h1, if_pos (by omega)]
      · rw [if_neg h1, if_neg (by omega)]

/-- **C159 is false** of the freestanding copy: on regions that overlap with `dest` behind `src` bytes are overwritten before they are
read. -/
theorem C159_refuted : ¬ ∀ (m : List Nat) (dest src size : Nat), dest + size ≤ m.length → src + size ≤ m.length →
    Copied dest src size m (memcpyLoop dest src size m) := by
  intro h
  obtain ⟨m', h1, -, h2⟩ := h [1, 2, 3] 1 0 2 (by decide) (by decide)
  have e : memcpyLoop 1 0 2 [1, 2, 3] = .ok 1 [1, 1, 1] := by decide
  rw [e] at h1
  cases h1
  exact absurd (h2 2) (by decide)

/-- **C159, the part that holds.**  The freestanding copy is right unless `dest` lies inside the source and behind its beginning. -/
theorem C159_copy_partial (m : List α) (dest src size : Nat) (hd : dest + size ≤ m.length) (hs : src + size ≤ m.length)
    (hov : dest ≤ src ∨ src + size ≤ dest) : Copied dest src size m (memcpyLoop dest src size m) := by
  obtain ⟨m', h1, h2, h3⟩ := Freestanding.copyLoop_run dest src size m (fun i => src + i) hd
    (fun i hi => by rw [if_neg (by omega)]) (fun i hi => by omega) size 0 m (by omega) rfl (fun j => by rw [if_neg (by omega)])
  refine ⟨m', ?_, h2, h3⟩
  unfold memcpyLoop
  rw [Cpp.bind_ok h1]
  rfl

example : memcpyLoop 0 1 2 [1, 2, 3] = .ok 0 [2, 3, 3] := by decide

/-- **C159, what happens otherwise.**  If `dest` is `d` bytes behind `src` the first `d` bytes of the source are repeated. -/
theorem C159_overlap (m : List α) (src d size : Nat) (h0 : 0 < d) (hd : src + d + size ≤ m.length) :
    ∃ m', memcpyLoop (src + d) src size m = .ok (src + d) m' ∧ m'.length = m.length ∧
      ∀ j, m'[j]? = if src + d ≤ j ∧ j < src + d + size then m[src + (j - (src + d)) % d]? else m[j]? := by
  obtain ⟨m', h1, h2, h3⟩ := Freestanding.copyLoop_run (src + d) src size m (fun i => src + i % d) hd
    (fun i hi => by
      split
      · rename_i h
        show src + (src + i - (src + d)) % d = src + i % d
        rw [show src + i - (src + d) = i - d by omega, Nat.mod_eq_sub_mod (show d ≤ i by omega)]
      · rename_i h
        rw [Nat.mod_eq_of_lt (by omega)]) (fun i hi => by
      have := Nat.mod_le i d
      show src + i % d < _
      omega) size 0 m (by omega) rfl (fun j => by rw [if_neg (by omega)])
  refine ⟨m', ?_, h2, h3⟩
  unfold memcpyLoop
  rw [Cpp.bind_ok h1]
  rfl

example : memcpyLoop 2 0 3 ['a', 'b', 'c', 'd', 'e', 'f'] = .ok 2 ['a', 'b', 'a', 'b', 'a', 'f'] := by decide

/-- **C159, hosted builds.**  The copy of a hosted build is right wherever it is defined, and then the two builds agree. -/
theorem C159_builds_agree (m m' : List α) (dest src size r : Nat) (h : memcpyStd dest src size m = .ok r m') :
    Copied dest src size m (memcpyStd dest src size m) ∧ memcpyLoop dest src size m = memcpyStd dest src size m := by
  unfold memcpyStd at h
  split at h
  · cases h
  rename_i h1
  split at h
  · cases h
  rename_i h2
  have hrun : memcpyStd dest src size m = .ok dest (m.take dest ++ (m.drop src).take size ++ m.drop (dest + size)) := by
    unfold memcpyStd
    rw [if_neg h1, if_neg h2]
  have hlen : (m.take dest ++ (m.drop src).take size ++ m.drop (dest + size)).length = m.length := by
    simp only [List.length_append, List.length_take, List.length_drop]; omega
  have hix : ∀ j, (m.take dest ++ (m.drop src).take size ++ m.drop (dest + size))[j]? =
      if dest ≤ j ∧ j < dest + size then m[src + (j - dest)]? else m[j]? := by
    intro j
    rw [List.append_assoc, List.getElem?_append]
    have e1 : (m.take dest).length = dest := by rw [List.length_take]; omega
    have e2 : ((m.drop src).take size).length = size := by rw [List.length_take, List.length_drop]; omega
    rw [e1]
    by_cases hj : j < dest
    · rw [if_pos hj, if_neg (by omega), List.getElem?_take, if_pos hj]
    · rw [if_neg hj, List.getElem?_append, e2]
      by_cases hj2 : j < dest + size
      · rw [if_pos (by omega), if_pos (by omega), List.getElem?_take, if_pos (by omega), List.getElem?_drop]
      · rw [if_neg (by omega), if_neg (by omega), List.getElem?_drop]
        congr 1
        omega
  refine ⟨⟨_, hrun, hlen, hix⟩, ?_⟩
  have hcopy : Copied dest src size m (memcpyLoop dest src size m) := by
    rcases Nat.eq_zero_or_pos size with rfl | hpos
    · exact ⟨m, rfl, rfl, fun j => by rw [if_neg (by omega)]⟩
    · exact C159_copy_partial m dest src size (by omega) (by omega) (by omega)
  obtain ⟨m2, h3, h4, h5⟩ := hcopy
  rw [h3, hrun]
  congr 1
  exact List.ext_getElem? fun j => by rw [h5, hix]

example : memcpyStd 3 0 2 [1, 2, 3, 4, 5] = .ok 3 [1, 2, 3, 1, 2] := by decide

/-! ## C160 -/

/-- what C160 says of a build: after any history the text of an error is the one it had -/
def KeepsTexts {E : Type} (run : List Op → Cpp (World E) Unit) (text : Nat → Cpp (World E) String) : Prop :=
  ∀ (os : List Op) (w w' : World E) (e : Nat) (s : String), text e w = .ok s w → run os w = .ok () w' → text e w' = .ok s w'

theorem Freestanding.step_std {o : Op} {w w' : World StdErr} (h : o.runStd w = .ok () w') :
    ∃ l, w'.errs = w.errs ++ l := by
  cases o with
  | make b =>
    simp only [Op.runStd] at h
    cases hb : (w.bufs[b]?).join with
    | none => rw [hb] at h; exact nomatch h
    | some s => rw [hb] at h; exact ⟨_, by rw [← (Out.ok.inj h).2]⟩
  | copy c =>
    simp only [Op.runStd] at h
    cases hb : w.errs[c]? with
    | none => rw [hb] at h; exact nomatch h
    | some s => rw [hb] at h; exact ⟨_, by rw [← (Out.ok.inj h).2]⟩
  | write b s =>
    simp only [Op.runStd, writeBuf] at h
    by_cases hb : b < w.bufs.length
    · rw [if_pos hb] at h; exact ⟨[], by rw [← (Out.ok.inj h).2, List.append_nil]⟩
    · rw [if_neg hb] at h; exact nomatch h
  | free b =>
    simp only [Op.runStd, writeBuf] at h
    by_cases hb : b < w.bufs.length
    · rw [if_pos hb] at h; exact ⟨[], by rw [← (Out.ok.inj h).2, List.append_nil]⟩
    · rw [if_neg hb] at h; exact nomatch h

theorem Freestanding.errs_kept {E : Type} {l l' : List E} (h : ∃ t, l' = l ++ t) {e : Nat} {x : E} (he : l[e]? = some x) :
    l'[e]? = some x := by
  obtain ⟨t, rfl⟩ := h
  rw [List.getElem?_append_left (List.getElem?_eq_some_iff.1 he).1, he]

/-- **C160, hosted builds.** -/
theorem C160_hosted : KeepsTexts runsStd whatTextStd := by
  intro os
  induction os with
  | nil => intro w w' e s h1 h2; cases h2; exact h1
  | cons o os ih =>
    intro w w' e s h1 h2
    simp only [runsStd, Cpp.bind_run] at h2
    split at h2
    · rename_i b w1 h3
      refine ih w1 w' e s ?_ h2
      unfold whatTextStd at h1 ⊢
      split at h1
      · rename_i x hx
        cases h1
        rw [Freestanding.errs_kept (Freestanding.step_std h3) hx]
      · cases h1
    · cases h2
    · cases h2

/-- **C160 is false** of freestanding builds: writing to the buffer an error was made from changes its text. -/
theorem C160_refuted : ¬ KeepsTexts runs whatText := by
  intro h
  have := h [.write 0 "other"] ⟨[some "text"], [⟨0⟩]⟩ ⟨[some "other"], [⟨0⟩]⟩ 0 "text" rfl rfl
  have h2 : whatText 0 ⟨[some "other"], [⟨0⟩]⟩ = .ok "other" ⟨[some "other"], [⟨0⟩]⟩ := rfl
  rw [h2, Out.ok.injEq] at this
  exact absurd this.1 (by decide)

/-- after the end of the buffer reading the text is undefined -/
theorem C160_dangling : ∃ (w w' : World Err), whatText 0 w = .ok "text" w ∧ runs [.free 0] w = .ok () w' ∧ ∃ u, whatText 0 w' = .ub u :=
  ⟨⟨[some "text"], [⟨0⟩]⟩, ⟨[none], [⟨0⟩]⟩, rfl, rfl, _, rfl⟩

theorem Freestanding.step {o : Op} {w w' : World Err} (h : o.run w = .ok () w') {b : Nat}
    (hb : ∀ s, o ≠ .write b s ∧ o ≠ .free b) : (∃ l, w'.errs = w.errs ++ l) ∧ w'.bufs[b]? = w.bufs[b]? := by
  cases o with
  | make c =>
    obtain rfl := (Out.ok.inj h).2
    exact ⟨⟨_, rfl⟩, rfl⟩
  | copy c =>
    simp only [Op.run] at h
    cases hc : w.errs[c]? with
    | none => rw [hc] at h; exact nomatch h
    | some x => rw [hc] at h; obtain rfl := (Out.ok.inj h).2; exact ⟨⟨_, rfl⟩, rfl⟩
  | write c s =>
    simp only [Op.run, writeBuf] at h
    by_cases hc : c < w.bufs.length
    · rw [if_pos hc] at h
      obtain rfl := (Out.ok.inj h).2
      refine ⟨⟨[], (List.append_nil _).symm⟩, List.getElem?_set_ne ?_⟩
      rintro rfl
      exact (hb s).1 rfl
    · rw [if_neg hc] at h; exact nomatch h
  | free c =>
    simp only [Op.run, writeBuf] at h
    by_cases hc : c < w.bufs.length
    · rw [if_pos hc] at h
      obtain rfl := (Out.ok.inj h).2
      refine ⟨⟨[], (List.append_nil _).symm⟩, List.getElem?_set_ne ?_⟩
      rintro rfl
      exact (hb "").2 rfl
    · rw [if_neg hc] at h; exact nomatch h

/-- **C160, freestanding builds.**  The text is kept by every history that neither writes to nor ends the buffer the error was made
from; so for string literals, which the library itself uses. -/
theorem C160_freestanding_partial (os : List Op) (w w' : World Err) (e b : Nat) (s : String) (he : w.errs[e]? = some ⟨b⟩)
    (hb : ∀ o ∈ os, ∀ t, o ≠ .write b t ∧ o ≠ .free b) (h : whatText e w = .ok s w) (hr : runs os w = .ok () w') :
    whatText e w' = .ok s w' := by
  induction os generalizing w with
  | nil => cases hr; exact h
  | cons o os ih =>
    simp only [runs, Cpp.bind_run] at hr
    split at hr
    · rename_i u w1 h3
      obtain ⟨h4, h5⟩ := Freestanding.step h3 (b := b) (fun t => hb o (by simp) t)
      have h4 := Freestanding.errs_kept h4 he
      refine ih w1 h4 (fun o' ho' => hb o' (List.mem_cons_of_mem _ ho')) ?_ hr
      unfold whatText at h ⊢
      rw [he] at h
      rw [h4]
      simp only at h ⊢
      rw [h5]
      split at h
      · rename_i t ht
        obtain rfl : t = s := (Out.ok.inj h).1
        rfl
      · cases h
    · cases hr
    · cases hr

example : ∃ w', runs [.copy 0, .write 1 "x", .copy 1] ⟨[some "text", some "y"], [⟨0⟩]⟩ = .ok () w' ∧ whatText 2 w' = .ok "text" w' :=
  ⟨_, rfl, rfl⟩

/-- **C160, copies.**  In either build a copy has the text of the original. -/
theorem C160_copies (e : Nat) (s : String) :
    (∀ w : World Err, whatText e w = .ok s w → ∃ w', runs [.copy e] w = .ok () w' ∧ whatText w.errs.length w' = .ok s w') ∧
    (∀ w : World StdErr, whatTextStd e w = .ok s w → ∃ w', runsStd [.copy e] w = .ok () w' ∧ whatTextStd w.errs.length w' = .ok s w') := by
  constructor
  · intro w h
    unfold whatText at h
    cases hx : w.errs[e]? with
    | none => rw [hx] at h; exact nomatch h
    | some x =>
      rw [hx] at h
      refine ⟨{ w with errs := w.errs ++ [⟨x.what⟩] }, ?_, ?_⟩
      · have : Op.run (.copy e) w = .ok () { w with errs := w.errs ++ [⟨x.what⟩] } := by simp only [Op.run, hx]
        unfold runs
        rw [Cpp.bind_ok this]
        rfl
      · cases ht : (w.bufs[x.what]?).join with
        | none => simp only [ht] at h; exact nomatch h
        | some t =>
          simp only [ht] at h
          simp only [whatText, List.getElem?_append_right (Nat.le_refl _), Nat.sub_self, List.getElem?_cons_zero, ht]
          rw [(Out.ok.inj h).1]
  · intro w h
    unfold whatTextStd at h
    cases hx : w.errs[e]? with
    | none => rw [hx] at h; exact nomatch h
    | some x =>
      rw [hx] at h
      refine ⟨{ w with errs := w.errs ++ [⟨x.text⟩] }, ?_, ?_⟩
      · have : Op.runStd (.copy e) w = .ok () { w with errs := w.errs ++ [⟨x.text⟩] } := by simp only [Op.runStd, hx]
        unfold runsStd
        rw [Cpp.bind_ok this]
        rfl
      · simp only [whatTextStd, List.getElem?_append_right (Nat.le_refl _), Nat.sub_self, List.getElem?_cons_zero]
        rw [(Out.ok.inj h).1]

/-- **C160, new errors.**  In either build a new error has the text of the buffer it is made from. -/
theorem C160_made (b : Nat) (s : String) (bufs : List (Option String)) (hb : bufs[b]? = some (some s)) :
    (∀ errs : List Err, ∃ w', runs [.make b] ⟨bufs, errs⟩ = .ok () w' ∧ whatText errs.length w' = .ok s w') ∧
    (∀ errs : List StdErr, ∃ w', runsStd [.make b] ⟨bufs, errs⟩ = .ok () w' ∧ whatTextStd errs.length w' = .ok s w') := by
  constructor
  · intro errs
    refine ⟨⟨bufs, errs ++ [⟨b⟩]⟩, rfl, ?_⟩
    simp [whatText, hb]
  · intro errs
    have : Op.runStd (.make b) ⟨bufs, errs⟩ = .ok () ⟨bufs, errs ++ [⟨s⟩]⟩ := by simp [Op.runStd, hb]
    refine ⟨⟨bufs, errs ++ [⟨s⟩]⟩, by unfold runsStd; rw [Cpp.bind_ok this]; rfl, ?_⟩
    simp [whatTextStd]

example : ([some "text", none] : List (Option String))[0]? = some (some "text") := rfl

end Efp.Props
