import Verif.StrWorldLemmas

/-! Programs over many `String`s: balance of blocks and simulation on text (helper lemmas). -/

namespace Efp
namespace StrWorld

open VecS Spec

/-! ### balance of blocks -/

/-- 1 if the variable holds a block -/
def blk : Option (Str × Form) → Int
  | some (s, _) => hadBlock s
  | none => 0

/-- blocks held by no variable -/
def lost (W : StrWorld) : Int := W.led.blocks - tot blk W.vars

/-- a constructor: the blocks allocated are those of the new object; nothing is left when it throws -/
def FairNew (led : Ledger) : Out Str Unit → Prop
  | .ok _ t => t.led.blocks - hadBlock t = led.blocks
  | .thrown t => t.led.blocks = led.blocks
  | .ub _ => True

theorem blank_blocks (n cap : Nat) (led : Ledger) :
    (Str.blank n cap led).led.blocks - hadBlock (Str.blank n cap led) = led.blocks := by
  simp [Str.blank, Ledger.blocks, hadBlock]; omega

theorem fairNew_from {m : Cpp Str Unit} (h : All Fair False m) {s : Str} {led : Ledger}
    (hs : s.led.blocks - hadBlock s = led.blocks) : FairNew led (m s) := by
  cases e : m s with
  | ub u => trivial
  | thrown t => exact (h.threw e).1.elim
  | ok _ t => exact (h.ok e).1.trans hs

theorem fairNew_construct (led : Ledger) (i : Str.Init) : FairNew led (construct led i) := by
  cases i with
  | default => simp [construct, FairNew, mk0, hadBlock]
  | cstr buf =>
    simp only [construct, Str.ofCStr]
    cases Str.strlen buf with
    | none => trivial
    | some n => exact fairNew_from (All.forUp pre_fair (fun i => fair_writeBody 0 buf i) 0 n) (blank_blocks _ _ _)
  | count buf n => exact fairNew_from (All.forUp pre_fair (fun i => fair_writeBody 0 buf i) 0 n) (blank_blocks _ _ _)
  | fill n c => exact fairNew_from (All.forUp pre_fair (fun i => fair_onMem (quiet_assign i c)) 0 n) (blank_blocks _ _ _)

theorem fairNew_copy (led : Ledger) (o : Str) : FairNew led (copyCtor o led) := by
  unfold copyCtor
  split
  · trivial
  · simp [FairNew, hadBlock]
  · exact fairNew_from (s := _) (All.forUp pre_fair (fair_copyOne o) 0 o.size) (by simp [Ledger.blocks, hadBlock]; omega)

theorem fairNew_substr (led : Ledger) (o : Str) (pos len : Nat) : FairNew led (Str.substr o pos len led) := by
  unfold Str.substr
  split
  · simp [FairNew, mk0]
  · refine fairNew_from (All.forUp pre_fair (fun i => ?_) 0 _) (blank_blocks _ _ _)
    exact All.bind pre_fair (fair_readOf o _) fun c => fair_onMem (quiet_assign i c)

theorem declare_lost {W W' : StrWorld} {f : Form} {r : Out Str Unit} {b : Bool} (hr : FairNew W.led r)
    (h : W.declare f r = .ok (W', b)) : W'.lost = W.lost := by
  cases r with
  | ub u => cases h
  | thrown t => cases h; simp only [FairNew] at hr; simp only [lost, hr]
  | ok _ t => cases h; simp only [FairNew] at hr; simp only [lost, tot_append, blk]; omega

theorem store_lost {W W' : StrWorld} {v : Nat} {s0 s : Str} {f : Form} {m : Cpp Str Unit} {b : Bool}
    (hv : W.vars[v]? = some (some (s0, f))) (hs : s = { s0 with led := W.led }) (hm : All Fair True m)
    (h : W.store v s f (m s) = .ok (W', b)) : W'.lost = W.lost := by
  have key : ∀ t, Fair s t → (W.update v s f t).lost = W.lost := by
    intro t ht
    have := ht.1
    have e : hadBlock s = hadBlock s0 := by rw [hs]; rfl
    have e' : s.led = W.led := by rw [hs]
    rw [e, e'] at this
    simp only [lost, update, tot_set _ _ _ _ _ hv, blk]
    omega
  unfold store at h
  cases e : m s with
  | ub u => rw [e] at h; cases h
  | ok _ t => rw [e] at h; cases h; exact key t (hm.ok e)
  | thrown t => rw [e] at h; cases h; exact key t (hm.threw e).2

theorem moveAssign_alloc (s o : Str) :
    match VecS.moveAssign .trivial o s with
    | .ok _ t => t.led.alloc = s.led.alloc
    | _ => True := by
  unfold VecS.moveAssign
  rw [Cpp.bind_run]
  cases e1 : VecS.destroyAll .trivial s with
  | ub u => trivial
  | thrown t => trivial
  | ok _ t =>
    obtain ⟨h1, h2, h3⟩ := (same_destroyAll (T := False)).ok e1
    simp only
    rw [Cpp.bind_run]
    cases hp : t.ptr <;> simp only [VecS.dealloc, hp] <;> exact h1

theorem dtor_alloc (s : Str) :
    match VecS.dtor .trivial s with
    | .ok _ t => t.led.alloc = s.led.alloc
    | _ => True := by
  unfold VecS.dtor
  cases hp : s.ptr with
  | wild => trivial
  | null => rfl
  | block =>
    simp only
    rw [Cpp.bind_run]
    cases e1 : VecS.destroyAll .trivial s with
    | ub u => trivial
    | thrown t => trivial
    | ok _ t =>
      obtain ⟨h1, h2, h3⟩ := (same_destroyAll (T := False)).ok e1
      rw [hp] at h3
      simp only
      rw [Cpp.bind_run]
      simp [VecS.dealloc, h3, h1]

theorem step_lost {W W' : StrWorld} {op : Step} {b : Bool} (h : step op W = .ok (W', b)) : W'.lost = W.lost := by
  cases op with
  | make i => exact declare_lost (fairNew_construct _ i) h
  | copy v =>
    simp only [step, bind, Except.bind] at h
    cases hv : W.var v with
    | error u => rw [hv] at h; cases h
    | ok x => rw [hv] at h; exact declare_lost (fairNew_copy _ _) h
  | substr v pos len =>
    simp only [step, bind, Except.bind] at h
    cases hv : W.var v with
    | error u => rw [hv] at h; cases h
    | ok x => rw [hv] at h; exact declare_lost (fairNew_substr _ _ _ _) h
  | move v =>
    simp only [step, bind, Except.bind] at h
    cases hv : W.var v with
    | error u => rw [hv] at h; cases h
    | ok x =>
      rw [hv] at h
      obtain ⟨s, f⟩ := x
      obtain ⟨s0, h0, hs⟩ := var_ok hv
      cases h
      have h2 : hadBlock s = hadBlock s0 := by rw [hs]; rfl
      simp only [lost, tot_append, tot_set _ _ _ _ _ h0, VecS.moveCtor, blk, h2, movedFrom]
      simp [hadBlock]
  | assign v w =>
    simp only [step, bind, Except.bind] at h
    cases hv : W.var v with
    | error u => rw [hv] at h; cases h
    | ok x =>
      cases hw : W.var w with
      | error u => rw [hv, hw] at h; cases h
      | ok y =>
        rw [hv, hw] at h
        simp only at h
        obtain ⟨s0, h0, hs⟩ := var_ok hv
        by_cases e : v = w
        · rw [if_pos e] at h; cases h; rfl
        · rw [if_neg e] at h; exact store_lost h0 hs (fair_copyAssign y.1) h
  | moveAssign v w =>
    simp only [step, bind, Except.bind] at h
    cases hv : W.var v with
    | error u => rw [hv] at h; cases h
    | ok x =>
      cases hw : W.var w with
      | error u => rw [hv, hw] at h; cases h
      | ok y =>
        rw [hv, hw] at h
        obtain ⟨s, f⟩ := x
        obtain ⟨o, g⟩ := y
        simp only at h
        obtain ⟨s0, h0, hs⟩ := var_ok hv
        obtain ⟨o0, h1, ho⟩ := var_ok hw
        by_cases e : v = w
        · rw [if_pos e] at h; cases h; rfl
        · rw [if_neg e] at h
          have hb := moveAssign_blocks s o
          have ha := moveAssign_alloc s o
          cases em : VecS.moveAssign .trivial o s with
          | ub u => rw [em] at h; cases h
          | thrown t => rw [em] at hb; exact hb.elim
          | ok o' t =>
            rw [em] at h hb ha
            cases h
            simp only at hb ha
            have e1 : hadBlock s = hadBlock s0 := by rw [hs]; rfl
            have e3 : s.led = W.led := by rw [hs]
            have e2 : hadBlock t = hadBlock o0 := by simp only [hadBlock, hb.1, ho]
            have e4 : hadBlock o' = 0 := by simp [hadBlock, hb.2.1]
            have h1' : (W.vars.set v (some (t, g)))[w]? = some (some (o0, g)) := by
              rw [List.getElem?_set_ne e]; exact h1
            have hf := hb.2.2
            rw [e1, e3] at hf
            rw [e3] at ha
            simp only [lost, tot_set _ _ _ _ _ h1', tot_set _ _ _ _ _ h0, blk, e2, e4, Ledger.blocks, ha, hf]
            push_cast
            omega
  | plus v w =>
    simp only [step, bind, Except.bind] at h
    cases hv : W.var v with
    | error u => rw [hv] at h; cases h
    | ok x =>
      cases hw : W.var w with
      | error u => rw [hv, hw] at h; cases h
      | ok y =>
        rw [hv, hw] at h
        simp only at h
        obtain ⟨s0, h0, hs⟩ := var_ok hv
        by_cases e : v = w
        · rw [if_pos e] at h; cases h
        · rw [if_neg e] at h; exact store_lost h0 hs (fair_plusEq y.1) h
  | on v op =>
    simp only [step, bind, Except.bind] at h
    cases hv : W.var v with
    | error u => rw [hv] at h; cases h
    | ok x =>
      rw [hv] at h
      obtain ⟨s0, h0, hs⟩ := var_ok hv
      exact store_lost h0 hs (fair_sop op) h
  | destroy v =>
    simp only [step, bind, Except.bind] at h
    cases hv : W.var v with
    | error u => rw [hv] at h; cases h
    | ok x =>
      rw [hv] at h
      obtain ⟨s, f⟩ := x
      simp only at h
      obtain ⟨s0, h0, hs⟩ := var_ok hv
      have hb := dtor_blocks s
      have ha := dtor_alloc s
      cases em : VecS.dtor .trivial s with
      | ub u => rw [em] at h; cases h
      | thrown t => rw [em] at hb; exact hb.elim
      | ok _ t =>
        rw [em] at h hb ha
        cases h
        simp only at hb ha
        have e1 : hadBlock s = hadBlock s0 := by rw [hs]; rfl
        have e3 : s.led = W.led := by rw [hs]
        rw [e1, e3] at hb
        rw [e3] at ha
        simp only [lost, tot_set _ _ _ _ _ h0, blk, Ledger.blocks, ha, hb]
        push_cast
        omega

theorem run_lost {ops : List Step} {W W' : StrWorld} {evs : List Bool} (h : run ops W = .ok (W', evs)) :
    W'.lost = W.lost := by
  induction ops generalizing W evs with
  | nil => cases h; rfl
  | cons op ops ih =>
    simp only [run, bind, Except.bind] at h
    cases e : step op W with
    | error u => rw [e] at h; cases h
    | ok r =>
      obtain ⟨W1, b⟩ := r
      rw [e] at h
      simp only at h
      cases e2 : run ops W1 with
      | error u => rw [e2] at h; cases h
      | ok r2 =>
        obtain ⟨W2, es⟩ := r2
        rw [e2] at h
        cases h
        rw [ih e2, step_lost e]

/-! ### simulation on text -/

/-- a variable and the text it stands for -/
def VarT : Option (Str × Form) → Option (List Nat) → Prop
  | some (s, _), some l => Rep .trivial s l
  | none, none => True
  | _, _ => False

/-- variables and their texts -/
structure InvT (vars : List (Option (Str × Form))) (L : List (Option (List Nat))) : Prop where
  len : vars.length = L.length
  rep : ∀ (i : Nat) o p, vars[i]? = some o → L[i]? = some p → VarT o p

theorem InvT.add {vars : List (Option (Str × Form))} {L : List (Option (List Nat))} (h : InvT vars L) {o : Option (Str × Form)}
    {p : Option (List Nat)} (ho : VarT o p) : InvT (vars ++ [o]) (L ++ [p]) := by
  refine ⟨by simp [h.len], fun i a b ha hb => ?_⟩
  have hl := h.len
  by_cases h1 : i < L.length
  · rw [List.getElem?_append_left (by omega)] at ha hb
    exact h.rep i a b ha hb
  · rw [List.getElem?_append_right (by omega)] at ha hb
    have e : i - L.length = 0 := by
      rcases Nat.eq_zero_or_pos (i - L.length) with e | e
      · exact e
      · rw [List.getElem?_eq_none (by simp; omega)] at hb
        cases hb
    rw [e] at hb
    rw [show i - vars.length = 0 by omega] at ha
    cases ha; cases hb; exact ho

theorem InvT.upd {vars : List (Option (Str × Form))} {L : List (Option (List Nat))} (h : InvT vars L) (v : Nat)
    {o : Option (Str × Form)} {p : Option (List Nat)} (ho : VarT o p) : InvT (vars.set v o) (L.set v p) := by
  refine ⟨by simp [h.len], fun i a b ha hb => ?_⟩
  have hl := h.len
  rw [List.getElem?_set] at ha hb
  by_cases hvi : v = i
  · subst hvi
    by_cases hlt : v < L.length
    · rw [if_pos rfl, if_pos (by omega)] at ha
      rw [if_pos rfl, if_pos hlt] at hb
      cases ha; cases hb; exact ho
    · rw [if_pos rfl, if_neg hlt] at hb; cases hb
  · rw [if_neg hvi] at ha hb
    exact h.rep i a b ha hb

theorem InvT.value {W : StrWorld} {L : List (Option (List Nat))} (h : InvT W.vars L) {v : Nat} {l : List Nat}
    (hv : Spec.valueOf L v = some l) :
    ∃ s f, W.var v = .ok (s, f) ∧ Rep .trivial s l ∧ L[v]? = some (some l) := by
  have hp : L[v]? = some (some l) := valueOf_some.mp hv
  have hlt : v < W.vars.length := by
    have := (List.getElem?_eq_some_iff.mp hp).1
    have := h.len; omega
  have hx : W.vars[v]? = some W.vars[v] := List.getElem?_eq_getElem hlt
  have hr := h.rep v _ _ hx hp
  cases hs : W.vars[v] with
  | none => rw [hs] at hr; exact hr.elim
  | some x =>
    obtain ⟨s, f⟩ := x
    rw [hs] at hr hx
    have hr' : Rep .trivial s l := hr
    exact ⟨{ s with led := W.led }, f, by simp only [var, hx], ⟨hr'.1, hr'.2⟩, hp⟩

theorem InvT.contents {W : StrWorld} {L : List (Option (List Nat))} (h : InvT W.vars L) :
    W.contents = L.map (Option.map Except.ok) := by
  refine List.ext_getElem? fun i => ?_
  simp only [StrWorld.contents, List.getElem?_map]
  have hl := h.len
  by_cases hi : i < L.length
  · have h1 : W.vars[i]? = some W.vars[i] := List.getElem?_eq_getElem (by omega)
    have h2 : L[i]? = some L[i] := List.getElem?_eq_getElem hi
    have hr := h.rep i _ _ h1 h2
    rw [h1, h2]
    cases hx : W.vars[i] with
    | none =>
      rw [hx] at hr
      cases hy : L[i] with
      | none => rfl
      | some l => rw [hy] at hr; exact hr.elim
    | some x =>
      rw [hx] at hr
      cases hy : L[i] with
      | none => rw [hy] at hr; exact hr.elim
      | some l =>
        rw [hy] at hr
        have hr' : Rep .trivial x.1 l := hr
        simp [hr'.contents]
  · rw [List.getElem?_eq_none (by omega), List.getElem?_eq_none (by omega)]; rfl

/-- copy assignment between strings of the same length -/
theorem copyAssign_text {s o : Str} {l lo : List Nat} (h : Rep .trivial s l) (ho : Rep .trivial o lo)
    (hlen : l.length = lo.length) : ∃ t, copyAssign .trivial o s = .ok () t ∧ Rep .trivial t lo := by
  by_cases hsp : Spare s
  · obtain ⟨t, h1, h2, _⟩ := copyAssign_same h hsp ho hlen
    exact ⟨t, h1, h2⟩
  · have hsz := h.1
    have hosz := ho.1
    have hle := h.size_le_cap
    obtain ⟨_, h | ⟨hp, hcap, rest, hcells, hraw⟩⟩ := h
    · exact (hsp (.inl ⟨h.2.2.1, h.1⟩)).elim
    · have hc : s.cap = s.size := by
        by_cases e : s.size < s.cap
        · exact (hsp (.inr e)).elim
        · omega
      let s1 : Str := { s with
        cells := (l.map .live).map (dead .trivial) ++ rest
        led := { s.led with gone := s.led.gone + (l.map (Cell.live)).length } }
      have hd : (l.map (Cell.live)).map (dead .trivial) = l.map .live := by simp [dead]
      have h1 : Rep .trivial s1 l := ⟨hsz, .inr ⟨hp, by simp only [s1, hd, ← hcells]; exact hcap, rest, by simp only [s1, hd], by simp⟩⟩
      have hrs : resize .trivial o.size s1 = .ok () { afterRealloc s1 l (o.size + 1) with size := o.size } := by
        have h2 : o.size + 1 > s1.cap := by show _ > s.cap; omega
        unfold resize
        rw [Cpp.bind_ok (Cpp.get_run _), if_pos h2, Cpp.bind_ok (reserve_run h1 _), if_pos h2]
      have hr2 := rep_afterRealloc (k := .trivial) s1 l (o.size + 1) (by omega)
      obtain ⟨_, hr2 | ⟨hp2, hcap2, rest2, hcells2, _⟩⟩ := hr2
      · have := hr2.2.2.1; simp [afterRealloc] at this
      have hcl := copyLoop_run ho (s := { afterRealloc s1 l (o.size + 1) with size := o.size }) (.inl hp2) hcells2
        (by simp [hlen])
      refine ⟨_, Eq.trans ?_ hcl, ?_⟩
      · unfold copyAssign
        rw [Cpp.bind_ok (destroyAll_block (l.map .live) rest hp hcells (by simp [hsz]) (by simp)),
          Cpp.bind_ok (Cpp.get_run _), if_pos (by show s.cap < _; omega)]
        exact Cpp.bind_ok hrs
      · refine rep_block hp2 hosz ?_ rfl (by simp)
        have : (afterRealloc s1 l (o.size + 1)).cap = (l.map (Cell.live) ++ rest2).length := by rw [hcap2, hcells2]
        simpa [hlen] using this

theorem construct_text {i : Str.Init} (h : initOk i) (led : Ledger) :
    ∃ t, construct led i = .ok () t ∧ Rep .trivial t (strInit i) := by
  cases i with
  | default => exact ⟨_, rfl, rep_mk0 _ _⟩
  | cstr buf => obtain ⟨t, h1, h2, _⟩ := Str.ofCStr_run h led; exact ⟨t, h1, h2⟩
  | count buf n => obtain ⟨t, h1, h2, _⟩ := Str.ofCount_run h led; exact ⟨t, h1, h2⟩
  | fill n c => obtain ⟨t, h1, h2, _⟩ := Str.fill_run n c led; exact ⟨t, h1, h2⟩

theorem step_text {W : StrWorld} {L L' : List (Option (List Nat))} {b : Bool} (h : InvT W.vars L) {op : Step}
    (hs : Spec.swStep op L = some (L', b)) : ∃ W', step op W = .ok (W', b) ∧ InvT W'.vars L' := by
  cases op with
  | make i =>
    simp only [Spec.swStep] at hs
    by_cases hi : initOk i
    · rw [if_pos hi] at hs
      cases hs
      obtain ⟨t, ht, hr⟩ := construct_text hi W.led
      exact ⟨_, by simp only [step, ht, declare]; rfl, h.add (o := some (t, formOf i)) (p := some _) hr⟩
    · rw [if_neg hi] at hs; cases hs
  | copy v =>
    simp only [Spec.swStep, bind, Option.bind] at hs
    cases hv : Spec.valueOf L v with
    | none => rw [hv] at hs; cases hs
    | some l =>
      rw [hv] at hs
      simp only at hs
      by_cases hl : l = []
      · rw [if_pos hl] at hs; cases hs
      · rw [if_neg hl] at hs
        cases hs
        obtain ⟨s, f, hvar, hr, _⟩ := h.value hv
        obtain ⟨hp, _⟩ := hr.block_of_pos hl
        obtain ⟨t, ht, htr, _⟩ := copyCtor_run hr hp W.led
        exact ⟨_, by simp only [step, hvar, bind, Except.bind, ht, declare]; rfl, h.add (o := some (t, .single)) (p := some _) htr⟩
  | substr v pos len =>
    simp only [Spec.swStep, bind, Option.bind] at hs
    cases hv : Spec.valueOf L v with
    | none => rw [hv] at hs; cases hs
    | some l =>
      rw [hv] at hs
      simp only at hs
      obtain ⟨s, f, hvar, hr, _⟩ := h.value hv
      by_cases hl : pos ≤ l.length
      · rw [if_pos hl] at hs
        cases hs
        obtain ⟨t, ht, htr, _⟩ := Str.substr_run hr len hl W.led
        exact ⟨_, by simp only [step, hvar, bind, Except.bind, ht, declare]; rfl, h.add (o := some (t, .single)) (p := some _) htr⟩
      · rw [if_neg hl] at hs
        cases hs
        refine ⟨_, by simp only [step, hvar, bind, Except.bind, Str.substr, if_pos (show pos > s.size by rw [hr.1]; omega), declare]; rfl, h⟩
  | move v =>
    simp only [Spec.swStep, bind, Option.bind] at hs
    cases hv : Spec.valueOf L v with
    | none => rw [hv] at hs; cases hs
    | some l =>
      rw [hv] at hs
      cases hs
      obtain ⟨s, f, hvar, hr, _⟩ := h.value hv
      refine ⟨_, by simp only [step, hvar, bind, Except.bind]; rfl, ?_⟩
      exact (h.upd v (o := some (movedFrom s, .single)) (p := some []) (rep_mk0 _ _)).add (o := some (s, f)) (p := some l) hr
  | assign v w =>
    simp only [Spec.swStep, bind, Option.bind] at hs
    cases hv : Spec.valueOf L v with
    | none => rw [hv] at hs; cases hs
    | some l =>
      cases hw : Spec.valueOf L w with
      | none => rw [hv, hw] at hs; cases hs
      | some l' =>
        rw [hv, hw] at hs
        simp only at hs
        obtain ⟨s, f, hvar, hr, hpv⟩ := h.value hv
        obtain ⟨o, g, hovar, hro, hpw⟩ := h.value hw
        by_cases hll : l.length = l'.length
        · rw [if_pos hll] at hs
          cases hs
          by_cases hvw : v = w
          · subst hvw
            rw [hpv] at hpw
            cases hpw
            refine ⟨W, by simp only [step, hvar, bind, Except.bind, if_true]; rfl, ?_⟩
            rw [set_self _ _ _ hpv]; exact h
          · obtain ⟨t, ht, htr⟩ := copyAssign_text hr hro hll
            exact ⟨_, by simp only [step, hvar, hovar, bind, Except.bind, if_neg hvw, ht, store]; rfl,
              h.upd v (o := some (t, _)) (p := some l') htr⟩
        · rw [if_neg hll] at hs; cases hs
  | moveAssign v w =>
    simp only [Spec.swStep, bind, Option.bind] at hs
    cases hv : Spec.valueOf L v with
    | none => rw [hv] at hs; cases hs
    | some l =>
      cases hw : Spec.valueOf L w with
      | none => rw [hv, hw] at hs; cases hs
      | some l' =>
        rw [hv, hw] at hs
        simp only at hs
        obtain ⟨s, f, hvar, hr, hpv⟩ := h.value hv
        obtain ⟨o, g, hovar, hro, hpw⟩ := h.value hw
        by_cases hvw : v = w
        · rw [if_pos hvw] at hs
          cases hs
          exact ⟨W, by simp only [step, hvar, hovar, bind, Except.bind, if_pos hvw]; rfl, h⟩
        · rw [if_neg hvw] at hs
          cases hs
          obtain ⟨t, o', ht, htr, hor, _⟩ := moveAssign_run hr hro
          refine ⟨_, by simp only [step, hvar, hovar, bind, Except.bind, if_neg hvw, ht]; rfl, ?_⟩
          exact (h.upd v (o := some (t, g)) (p := some l') htr).upd w (o := some (o', .single)) (p := some []) hor
  | plus v w =>
    simp only [Spec.swStep, bind, Option.bind] at hs
    cases hv : Spec.valueOf L v with
    | none => rw [hv] at hs; cases hs
    | some l =>
      cases hw : Spec.valueOf L w with
      | none => rw [hv, hw] at hs; cases hs
      | some l' =>
        rw [hv, hw] at hs
        simp only at hs
        obtain ⟨s, f, hvar, hr, hpv⟩ := h.value hv
        obtain ⟨o, g, hovar, hro, hpw⟩ := h.value hw
        by_cases hvw : v = w
        · rw [if_pos hvw] at hs; cases hs
        · rw [if_neg hvw] at hs
          cases hs
          obtain ⟨t, ht, htr, _⟩ := Str.plusEq_run hr hro
          exact ⟨_, by simp only [step, hvar, hovar, bind, Except.bind, if_neg hvw, ht, store]; rfl,
            h.upd v (o := some (t, _)) (p := some _) htr⟩
  | on v op =>
    simp only [Spec.swStep, bind, Option.bind] at hs
    cases hv : Spec.valueOf L v with
    | none => rw [hv] at hs; cases hs
    | some l =>
      rw [hv] at hs
      simp only at hs
      obtain ⟨s, f, hvar, hr, hpv⟩ := h.value hv
      by_cases hop : sopOk op
      · rw [if_pos hop] at hs
        have hst := Str.sop_step hr op hop
        cases e : strStep op l with
        | none =>
          rw [e] at hs hst
          cases hs
          refine ⟨_, by simp only [step, hvar, bind, Except.bind, hst, store]; rfl, ?_⟩
          have := h.upd v (o := some (s, formAfter s f s.led)) (p := some l) hr
          rw [set_self _ _ _ hpv] at this
          exact this
        | some l' =>
          rw [e] at hs hst
          cases hs
          obtain ⟨t, ht, htr, _⟩ := hst
          exact ⟨_, by simp only [step, hvar, bind, Except.bind, ht, store]; rfl, h.upd v (o := some (t, _)) (p := some _) htr⟩
      · rw [if_neg hop] at hs; cases hs
  | destroy v =>
    simp only [Spec.swStep, bind, Option.bind] at hs
    cases hv : Spec.valueOf L v with
    | none => rw [hv] at hs; cases hs
    | some l =>
      rw [hv] at hs
      cases hs
      obtain ⟨s, f, hvar, hr, hpv⟩ := h.value hv
      obtain ⟨t, ht, _⟩ := dtor_run hr
      exact ⟨_, by simp only [step, hvar, bind, Except.bind, ht]; rfl, h.upd v (o := none) (p := none) trivial⟩

theorem run_text {ops : List Step} {W : StrWorld} {L L' : List (Option (List Nat))} {evs : List Bool} (h : InvT W.vars L)
    (hs : Spec.swRun ops L = some (L', evs)) : ∃ W', run ops W = .ok (W', evs) ∧ InvT W'.vars L' := by
  induction ops generalizing W L evs with
  | nil => cases hs; exact ⟨W, rfl, h⟩
  | cons op ops ih =>
    simp only [Spec.swRun, bind, Option.bind] at hs
    cases h1 : Spec.swStep op L with
    | none => rw [h1] at hs; cases hs
    | some r =>
      obtain ⟨L1, b⟩ := r
      rw [h1] at hs
      simp only at hs
      cases h2 : Spec.swRun ops L1 with
      | none => rw [h2] at hs; cases hs
      | some r2 =>
        obtain ⟨L2, es⟩ := r2
        rw [h2] at hs
        cases hs
        obtain ⟨W1, e1, i1⟩ := step_text h h1
        obtain ⟨W2, e2, i2⟩ := ih i1 h2
        exact ⟨W2, by simp only [run, e1, bind, Except.bind, e2]; rfl, i2⟩

end StrWorld
end Efp
