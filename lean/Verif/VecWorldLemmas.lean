import Verif.Spec.VecWorld
import Verif.VectorHistory

/-! Simulation of programs over many `Vector`s (helper lemmas). -/

namespace Efp
namespace VecS

variable {α : Type}

/-- sum of a measure over a list -/
def tot {γ : Type} (f : γ → Int) (l : List γ) : Int := (l.map f).sum

theorem tot_append {γ : Type} (f : γ → Int) (l : List γ) (a : γ) : tot f (l ++ [a]) = tot f l + f a := by
  simp [tot]

theorem tot_set {γ : Type} (f : γ → Int) (l : List γ) (i : Nat) (a b : γ) (h : l[i]? = some a) :
    tot f (l.set i b) = tot f l - f a + f b := by
  induction l generalizing i with
  | nil => simp at h
  | cons x l ih =>
    cases i with
    | zero =>
      simp only [List.getElem?_cons_zero, Option.some.injEq] at h
      subst h
      simp [tot]; omega
    | succ i =>
      simp only [List.getElem?_cons_succ] at h
      have := ih i h
      simp [tot] at this ⊢; omega

/-- block held by a variable -/
def vblock : Option (VecS α) → Int
  | some s => hadBlock s
  | none => 0

/-- elements of a variable -/
def velems (o : Option (List α)) : Int := ((o.getD []).length : Int)

/-- a variable and the list it stands for -/
def VarRep (k : Kind) : Option (VecS α) → Option (List α) → Prop
  | some s, some l => Rep k s l ∧ Spare s
  | none, none => True
  | _, _ => False

/-- variables and the lists they stand for, with the balance of the execution -/
structure InvW (k : Kind) (W : World α) (L : List (Option (List α))) : Prop where
  len : W.vars.length = L.length
  rep : ∀ (i : Nat) o p, W.vars[i]? = some o → L[i]? = some p → VarRep k o p
  blocks : W.led.blocks = tot vblock W.vars
  objs : k = .managed → W.led.objs = tot velems L

theorem invW_nil (k : Kind) : InvW k ({} : World α) [] :=
  ⟨rfl, by simp, rfl, fun _ => rfl⟩

theorem InvW.add {k : Kind} {W : World α} {L : List (Option (List α))} (h : InvW k W L) {s : VecS α}
    {l : List α} (hs : VarRep k (some s) (some l)) {led : Ledger}
    (hb : led.blocks = W.led.blocks + hadBlock s) (ho : k = .managed → led.objs = W.led.objs + l.length) :
    InvW k ⟨led, W.vars ++ [some s]⟩ (L ++ [some l]) := by
  refine ⟨by simp [h.len], fun i o p hi hp => ?_, ?_, fun hk => ?_⟩
  · have hl := h.len
    by_cases h1 : i < L.length
    · rw [List.getElem?_append_left (by omega)] at hi hp
      exact h.rep i o p hi hp
    · rw [List.getElem?_append_right (by omega)] at hi hp
      have e : i - L.length = 0 := by
        rcases Nat.eq_zero_or_pos (i - L.length) with e | e
        · exact e
        · rw [List.getElem?_eq_none (by simp; omega)] at hp
          cases hp
      rw [e] at hp
      rw [hl, e] at hi
      simp only [List.getElem?_cons_zero, Option.some.injEq] at hi hp
      subst hi; subst hp; exact hs
  · have := h.blocks
    simp only [tot_append, vblock]; omega
  · have := h.objs hk; have := ho hk
    simp only [tot_append, velems, Option.getD_some]; omega

theorem InvW.upd {k : Kind} {W : World α} {L : List (Option (List α))} (h : InvW k W L) {v : Nat}
    {o o' : Option (VecS α)} {p p' : Option (List α)} (hv : W.vars[v]? = some o) (hp : L[v]? = some p)
    (hr : VarRep k o' p') {led : Ledger}
    (hb : led.blocks = W.led.blocks - vblock o + vblock o')
    (ho : k = .managed → led.objs = W.led.objs - velems p + velems p') :
    InvW k ⟨led, W.vars.set v o'⟩ (L.set v p') := by
  refine ⟨by simp [h.len], fun i a b hi hb' => ?_, ?_, fun hk => ?_⟩
  · rw [List.getElem?_set] at hi hb'
    by_cases hvi : v = i
    · subst hvi
      have hlt := (List.getElem?_eq_some_iff.mp hv).1
      have hlt' := (List.getElem?_eq_some_iff.mp hp).1
      rw [if_pos rfl, if_pos hlt] at hi
      rw [if_pos rfl, if_pos hlt'] at hb'
      cases hi; cases hb'; exact hr
    · rw [if_neg hvi] at hi hb'
      exact h.rep i a b hi hb'
  · rw [tot_set _ _ _ _ _ hv]; have := h.blocks; simp only; omega
  · rw [tot_set _ _ _ _ _ hp]; have := h.objs hk; have := ho hk; simp only; omega

theorem set_self {γ : Type} (l : List γ) (v : Nat) (a : γ) (h : l[v]? = some a) : l.set v a = l := by
  obtain ⟨hv, rfl⟩ := List.getElem?_eq_some_iff.mp h
  exact List.set_getElem_self hv

theorem moveAssign_src {k : Kind} {s other t o : VecS α} (h : moveAssign k other s = .ok o t) :
    o.cap = 0 ∧ o.ptr = .null := by
  unfold moveAssign at h
  simp only [Cpp.bind_run] at h
  cases h1 : destroyAll k s with
  | thrown u => rw [h1] at h; cases h
  | ub u => rw [h1] at h; cases h
  | ok _ u =>
    rw [h1] at h
    simp only at h
    cases h2 : dealloc u with
    | thrown u => rw [h2] at h; cases h
    | ub u => rw [h2] at h; cases h
    | ok _ u' =>
      rw [h2] at h
      cases h
      exact ⟨rfl, rfl⟩

theorem moveAssign_null {k : Kind} {s other : VecS α} (hp : s.ptr = .null) (hsz : s.size = 0) :
    moveAssign k other s = .ok { movedFrom other with led := s.led } { other with led := s.led } := by
  unfold moveAssign
  rw [Cpp.bind_ok (destroyAll_null hsz)]
  simp [Cpp.bind_run, dealloc, hp]

theorem var_of {W : World α} {v : Nat} {s : VecS α} (h : W.vars[v]? = some (some s)) :
    W.var v = .ok { s with led := W.led } := by
  simp only [World.var, h]

theorem InvW.value {k : Kind} {W : World α} {L : List (Option (List α))} (h : InvW k W L) {v : Nat}
    {l : List α} (hv : Spec.valueOf L v = some l) :
    ∃ s, W.vars[v]? = some (some s) ∧ L[v]? = some (some l) ∧ Rep k s l ∧ Spare s ∧
      W.var v = .ok { s with led := W.led } := by
  have hp : L[v]? = some (some l) := by
    unfold Spec.valueOf at hv
    cases hx : L[v]? with
    | none => rw [hx] at hv; cases hv
    | some o => rw [hx] at hv; rw [show o = some l from hv]
  have hlt : v < W.vars.length := by
    have := (List.getElem?_eq_some_iff.mp hp).1
    have := h.len; omega
  have hx : W.vars[v]? = some W.vars[v] := List.getElem?_eq_getElem hlt
  have hr := h.rep v _ _ hx hp
  cases hs : W.vars[v] with
  | none => rw [hs] at hr; exact hr.elim
  | some s =>
    rw [hs] at hr hx
    exact ⟨s, hx, hp, hr.1, hr.2, by simp only [World.var, hx]⟩

/-- copy assignment between vectors of the same length -/
theorem copyAssign_same {k : Kind} {s other : VecS α} {l lo : List α} (h : Rep k s l) (hsp : Spare s)
    (ho : Rep k other lo) (hlen : l.length = lo.length) :
    ∃ t, copyAssign k other s = .ok () t ∧ Rep k t lo ∧ Spare t ∧
      t.led.blocks = s.led.blocks - hadBlock s + hadBlock t ∧ t.led.objs = s.led.objs := by
  have hsz := h.1
  have hosz := ho.1
  obtain ⟨_, h | ⟨hp, hcap, rest, hcells, hraw⟩⟩ := h
  · obtain ⟨hp, hcells, hcap, rfl⟩ := h
    have hlo : lo = [] := List.length_eq_zero_iff.mp (by simpa using hlen.symm)
    subst hlo
    simp only [List.length_nil] at hsz hosz
    have hr : Rep k s [] := ⟨hsz, .inl ⟨hp, hcells, hcap, rfl⟩⟩
    refine ⟨{ afterRealloc s [] 1 with size := 0 }, ?_, ?_, .inr (by simp [afterRealloc]), ?_, ?_⟩
    · unfold copyAssign
      rw [Cpp.bind_ok (destroyAll_null hsz), Cpp.bind_ok (Cpp.get_run _), if_pos (by omega)]
      have hrs : resize k other.size s = .ok () { afterRealloc s [] 1 with size := 0 } := by
        have h1 : other.size + 1 > s.cap := by omega
        unfold resize
        rw [Cpp.bind_ok (Cpp.get_run _), if_pos h1, Cpp.bind_ok (reserve_run hr _), if_pos h1, hosz]
      rw [Cpp.bind_ok hrs, hosz]; rfl
    · exact rep_afterRealloc s [] 1 (by simp)
    · simp [afterRealloc, hadBlock, hp, Ledger.blocks]
      try omega
    · simp [afterRealloc, Ledger.objs]
  · have hlt : s.size < s.cap := by
      rcases hsp with h | h
      · rw [h.2] at hp; cases hp
      · exact h
    have hcl := copyLoop_run ho (s := { s with
      cells := (l.map .live).map (dead k) ++ rest
      led := { s.led with gone := s.led.gone + (l.map (Cell.live)).length } }) (.inl hp) rfl
      (by simp [hlen])
    refine ⟨_, Eq.trans ?_ hcl, ?_, ?_, ?_, ?_⟩
    · unfold copyAssign
      rw [Cpp.bind_ok (destroyAll_block (l.map .live) rest hp hcells (by simp [hsz]) (by simp)),
        Cpp.bind_ok (Cpp.get_run _), if_neg (by show ¬ s.cap < _; omega)]
    · refine rep_block hp (by simp [hsz, hlen]) ?_ rfl hraw
      simp only [hcap, hcells]; simp [hlen]
    · exact .inr hlt
    · simp [hadBlock, hp, Ledger.blocks]
    · simp [Ledger.objs, hlen]; omega

theorem wop_run {k : Kind} {W : World α} {L L' : List (Option (List α))} {b : Bool} (h : InvW k W L)
    (op : WOp α) (hs : Spec.vwStep k op L = some (L', b)) :
    ∃ W', op.run k W = .ok (W', b) ∧ InvW k W' L' := by
  cases op with
  | make =>
    simp only [Spec.vwStep, Option.some.injEq, Prod.mk.injEq] at hs
    obtain ⟨rfl, rfl⟩ := hs
    exact ⟨_, rfl, h.add ⟨rep_mk0 k W.led, spare_mk0 _⟩ (by simp [hadBlock, mk0]) (by simp [mk0])⟩
  | makeOf l =>
    simp only [Spec.vwStep, Option.some.injEq, Prod.mk.injEq] at hs
    obtain ⟨rfl, rfl⟩ := hs
    obtain ⟨t, ht, hr, hp, hc, hl⟩ := ofList_run k l W.led
    refine ⟨⟨t.led, W.vars ++ [some t]⟩, by simp only [WOp.run, ht, World.declare], ?_⟩
    refine h.add ⟨hr, .inr (by have := hr.1; omega)⟩ ?_ (fun _ => ?_)
    · rw [hl]; simp [Ledger.blocks, hadBlock, hp]; omega
    · rw [hl]; simp [Ledger.objs]; omega
  | copy v =>
    simp only [Spec.vwStep, bind, Option.bind] at hs
    cases hv : Spec.valueOf L v with
    | none => rw [hv] at hs; cases hs
    | some l =>
      rw [hv] at hs
      obtain ⟨s, hsv, hpv, hr, hsp, hvar⟩ := h.value hv
      by_cases hl : l = []
      · simp only [if_pos hl] at hs; cases hs
      · simp only [if_neg hl, Option.some.injEq, Prod.mk.injEq] at hs
        obtain ⟨rfl, rfl⟩ := hs
        have hr' : Rep k { s with led := W.led } l := ⟨hr.1, hr.2⟩
        obtain ⟨hp, _⟩ := hr'.block_of_pos hl
        obtain ⟨t, ht, htr, htp, htc, htl⟩ := copyCtor_run hr' hp W.led
        refine ⟨⟨t.led, W.vars ++ [some t]⟩, ?_, ?_⟩
        · simp only [WOp.run, hvar, bind, Except.bind, ht, World.declare]
        · refine h.add ⟨htr, .inr ?_⟩ ?_ (fun _ => ?_)
          · have h1 := htr.1
            have h2 := hr.1
            rcases hsp with h | h
            · rw [show s.ptr = .block from hp] at h; cases h.2
            · simp only at htc; omega
          · rw [htl]; simp [Ledger.blocks, hadBlock, htp]; omega
          · rw [htl]; simp [Ledger.objs]; omega
  | assign v w =>
    simp only [Spec.vwStep, bind, Option.bind] at hs
    cases hv : Spec.valueOf L v with
    | none => rw [hv] at hs; cases hs
    | some l =>
      cases hw : Spec.valueOf L w with
      | none => rw [hv, hw] at hs; cases hs
      | some l' =>
        rw [hv, hw] at hs
        simp only at hs
        obtain ⟨s, hsv, hpv, hr, hsp, hvar⟩ := h.value hv
        obtain ⟨o, hov, hpw, hro, hosp, hovar⟩ := h.value hw
        by_cases hll : l.length = l'.length
        · rw [if_pos hll] at hs
          simp only [Option.some.injEq, Prod.mk.injEq] at hs
          obtain ⟨rfl, rfl⟩ := hs
          by_cases hvw : v = w
          · subst hvw
            rw [hpv] at hpw
            cases hpw
            refine ⟨W, ?_, ?_⟩
            · simp only [WOp.run, hvar, bind, Except.bind, if_true]; rfl
            · rw [set_self _ _ _ hpv]; exact h
          · have hr' : Rep k { s with led := W.led } l := ⟨hr.1, hr.2⟩
            have hro' : Rep k { o with led := W.led } l' := ⟨hro.1, hro.2⟩
            obtain ⟨t, ht, htr, hts, htb, hto⟩ := copyAssign_same hr' hsp hro' hll
            refine ⟨⟨t.led, W.vars.set v (some t)⟩, ?_, h.upd hsv hpv (o' := some t) (p' := some l') ⟨htr, hts⟩ ?_ fun _ => ?_⟩
            · simp only [WOp.run, hvar, hovar, bind, Except.bind, if_neg hvw, ht, World.store]
            · exact htb
            · simp only [velems, Option.getD_some, hll]; rw [hto]; simp
        · rw [if_neg hll] at hs; cases hs
  | move v =>
    simp only [Spec.vwStep, bind, Option.bind] at hs
    cases hv : Spec.valueOf L v with
    | none => rw [hv] at hs; cases hs
    | some l =>
      rw [hv] at hs
      simp only [Option.some.injEq, Prod.mk.injEq] at hs
      obtain ⟨rfl, rfl⟩ := hs
      obtain ⟨s, hsv, hpv, hr, hsp, hvar⟩ := h.value hv
      have hr' : Rep k { s with led := W.led } l := ⟨hr.1, hr.2⟩
      let led1 : Ledger := { W.led with freed := W.led.freed + hadBlock s, gone := W.led.gone + l.length }
      have h1 : InvW k ⟨led1, W.vars.set v (some (movedFrom { s with led := W.led }))⟩ (L.set v (some [])) := by
        refine h.upd hsv hpv (o' := some (movedFrom { s with led := W.led })) (p' := some []) ⟨rep_mk0 k W.led, .inl ⟨rfl, rfl⟩⟩ ?_ (fun _ => ?_)
        · simp [vblock, hadBlock, movedFrom, led1, Ledger.blocks]; omega
        · simp [velems, led1, Ledger.objs]; omega
      refine ⟨_, by simp only [WOp.run, hvar, bind, Except.bind]; rfl, ?_⟩
      refine h1.add (s := { s with led := W.led }) ⟨hr', hsp⟩ ?_ (fun _ => ?_)
      · simp [led1, Ledger.blocks, hadBlock]; omega
      · simp [led1, Ledger.objs]; omega
  | moveAssign v w =>
    simp only [Spec.vwStep, bind, Option.bind] at hs
    cases hv : Spec.valueOf L v with
    | none => rw [hv] at hs; cases hs
    | some l =>
      cases hw : Spec.valueOf L w with
      | none => rw [hv, hw] at hs; cases hs
      | some l' =>
        rw [hv, hw] at hs
        simp only at hs
        obtain ⟨s, hsv, hpv, hr, hsp, hvar⟩ := h.value hv
        obtain ⟨o, hov, hpw, hro, hosp, hovar⟩ := h.value hw
        by_cases hvw : v = w
        · rw [if_pos hvw] at hs
          simp only [Option.some.injEq, Prod.mk.injEq] at hs
          obtain ⟨rfl, rfl⟩ := hs
          exact ⟨W, by simp only [WOp.run, hvar, hovar, bind, Except.bind, if_pos hvw]; rfl, h⟩
        · rw [if_neg hvw] at hs
          simp only [Option.some.injEq, Prod.mk.injEq] at hs
          obtain ⟨rfl, rfl⟩ := hs
          have hr' : Rep k { s with led := W.led } l := ⟨hr.1, hr.2⟩
          have hro' : Rep k { o with led := W.led } l' := ⟨hro.1, hro.2⟩
          obtain ⟨t, o', ht, htr, hor, htc, htp, htl⟩ := moveAssign_run hr' hro'
          have hor0 := hor.1
          have hcap0 := moveAssign_src ht
          let led1 : Ledger := { t.led with alloc := t.led.alloc + hadBlock o, made := t.led.made + l'.length }
          have h1 : InvW k ⟨led1, W.vars.set v (some t)⟩ (L.set v (some l')) := by
            refine h.upd hsv hpv (o' := some t) (p' := some l') ⟨htr, ?_⟩ ?_ (fun _ => ?_)
            · rcases hosp with hx | hx
              · exact .inl ⟨htc.trans hx.1, htp.trans hx.2⟩
              · right
                have := htr.1; have := hro.1; simp only at htc; omega
            · simp only [led1, htl, vblock, hadBlock, Ledger.blocks, htp]; simp; omega
            · simp [velems, led1, Ledger.objs, htl]; omega
          refine ⟨⟨t.led, (W.vars.set v (some t)).set w (some o')⟩, ?_, ?_⟩
          · simp only [WOp.run, hvar, hovar, bind, Except.bind, if_neg hvw, ht]; rfl
          · refine h1.upd (o := some o) (p := some l') (o' := some o') (p' := some []) ?_ ?_ ⟨hor, .inl hcap0⟩ ?_ (fun _ => ?_)
            · rw [List.getElem?_set_ne hvw]; exact hov
            · rw [List.getElem?_set_ne hvw]; exact hpw
            · simp [vblock, led1, Ledger.blocks, hadBlock, hcap0.2]; omega
            · simp [velems, led1, Ledger.objs]; omega
  | on v op =>
    simp only [Spec.vwStep, bind, Option.bind] at hs
    cases hv : Spec.valueOf L v with
    | none => rw [hv] at hs; cases hs
    | some l =>
      rw [hv] at hs
      obtain ⟨s, hsv, hpv, hr, hsp, hvar⟩ := h.value hv
      simp only at hs
      by_cases hop : k = .managed → Spec.endOp op l
      · rw [if_pos hop] at hs
        simp only [Option.some.injEq, Prod.mk.injEq] at hs
        obtain ⟨rfl, rfl⟩ := hs
        have hr' : Rep k { s with led := W.led } l := ⟨hr.1, hr.2⟩
        have hst := step_run hr' hsp op hop
        cases hvs : Spec.vecStep op l with
        | none =>
          rw [hvs] at hst
          simp only at hst
          refine ⟨⟨W.led, W.vars.set v (some { s with led := W.led })⟩, ?_, ?_⟩
          · simp only [WOp.run, hvar, bind, Except.bind, hst, World.store, Spec.vecCall, hvs]
          · simp only [Spec.vecCall, hvs]
            exact h.upd hsv hpv (o' := some _) (p' := some l) ⟨hr', hsp⟩ (by simp [vblock, hadBlock]) (by simp)
        | some l' =>
          rw [hvs] at hst
          obtain ⟨t, ht, htr, hts, htb⟩ := hst
          refine ⟨⟨t.led, W.vars.set v (some t)⟩, ?_, ?_⟩
          · simp only [WOp.run, hvar, bind, Except.bind, ht, World.store, Spec.vecCall, hvs]
          · simp only [Spec.vecCall, hvs]
            refine h.upd hsv hpv (o' := some t) (p' := some l') ⟨htr, hts⟩ ?_ (fun hk => ?_)
            · have := htb.blocks
              simp only [vblock, hadBlock] at this ⊢; omega
            · have := htb.objs hk
              simp only [velems, Option.getD_some] at this ⊢; omega
      · rw [if_neg hop] at hs; cases hs
  | destroy v =>
    simp only [Spec.vwStep, bind, Option.bind] at hs
    cases hv : Spec.valueOf L v with
    | none => rw [hv] at hs; cases hs
    | some l =>
      rw [hv] at hs
      simp only [Option.some.injEq, Prod.mk.injEq] at hs
      obtain ⟨rfl, rfl⟩ := hs
      obtain ⟨s, hsv, hpv, hr, hsp, hvar⟩ := h.value hv
      have hr' : Rep k { s with led := W.led } l := ⟨hr.1, hr.2⟩
      obtain ⟨t, ht, htl⟩ := dtor_run hr'
      refine ⟨⟨t.led, W.vars.set v none⟩, by simp only [WOp.run, hvar, bind, Except.bind, ht]; rfl, ?_⟩
      refine h.upd hsv hpv (o' := none) (p' := none) trivial ?_ (fun _ => ?_)
      · rw [htl]; simp [vblock, hadBlock, Ledger.blocks]; omega
      · rw [htl]; simp [velems, Ledger.objs]; omega

theorem runW_run {k : Kind} (ops : List (WOp α)) {W : World α} {L L' : List (Option (List α))}
    {evs : List Bool} (h : InvW k W L) (hs : Spec.vwRun k ops L = some (L', evs)) :
    ∃ W', runW k ops W = .ok (W', evs) ∧ InvW k W' L' := by
  induction ops generalizing W L evs with
  | nil =>
    simp only [Spec.vwRun, Option.some.injEq, Prod.mk.injEq] at hs
    obtain ⟨rfl, rfl⟩ := hs
    exact ⟨W, rfl, h⟩
  | cons op ops ih =>
    simp only [Spec.vwRun, bind, Option.bind] at hs
    cases h1 : Spec.vwStep k op L with
    | none => rw [h1] at hs; cases hs
    | some r =>
      obtain ⟨L1, b⟩ := r
      rw [h1] at hs
      simp only at hs
      cases h2 : Spec.vwRun k ops L1 with
      | none => rw [h2] at hs; cases hs
      | some r2 =>
        rw [h2] at hs
        simp only [Option.some.injEq, Prod.mk.injEq] at hs
        obtain ⟨rfl, rfl⟩ := hs
        obtain ⟨W1, hw1, hi1⟩ := wop_run h op h1
        obtain ⟨W2, hw2, hi2⟩ := ih hi1 h2
        exact ⟨W2, by simp only [runW, hw1, bind, Except.bind, hw2]; rfl, hi2⟩

theorem InvW.contents {k : Kind} {W : World α} {L : List (Option (List α))} (h : InvW k W L) :
    W.contents = L.map (Option.map Except.ok) := by
  refine List.ext_getElem? fun i => ?_
  simp only [World.contents, List.getElem?_map]
  have hl := h.len
  by_cases hi : i < L.length
  · have h1 : W.vars[i]? = some W.vars[i] := List.getElem?_eq_getElem (by omega)
    have h2 : L[i]? = some L[i] := List.getElem?_eq_getElem hi
    have hr := h.rep i _ _ h1 h2
    rw [h1, h2]
    cases hx : W.vars[i] <;> cases hy : L[i] <;> rw [hx, hy] at hr
    · rfl
    · exact hr.elim
    · exact hr.elim
    · have := hr.1.contents; simp [this]
  · rw [List.getElem?_eq_none (by omega), List.getElem?_eq_none (by omega)]; rfl

theorem tot_vblock_bounds (l : List (Option (VecS α))) :
    0 ≤ tot vblock l ∧ tot vblock l ≤ ((l.filter Option.isSome).length : Int) := by
  induction l with
  | nil => simp [tot]
  | cons o l ih =>
    cases o with
    | none => simpa [tot, vblock] using ih
    | some s =>
      have : hadBlock s ≤ 1 := by unfold hadBlock; split <;> omega
      simp [tot, vblock] at ih ⊢; omega

theorem InvW.liveVars {k : Kind} {W : World α} {L : List (Option (List α))} (h : InvW k W L) :
    (W.vars.filter Option.isSome).length = (L.filter Option.isSome).length := by
  have e : W.vars.map Option.isSome = L.map Option.isSome := by
    refine List.ext_getElem? fun i => ?_
    have hl := h.len
    simp only [List.getElem?_map]
    by_cases hi : i < L.length
    · have h1 : W.vars[i]? = some W.vars[i] := List.getElem?_eq_getElem (by omega)
      have h2 : L[i]? = some L[i] := List.getElem?_eq_getElem hi
      have hr := h.rep i _ _ h1 h2
      rw [h1, h2]
      cases hx : W.vars[i] <;> cases hy : L[i] <;> rw [hx, hy] at hr <;> first | rfl | exact hr.elim
    · rw [List.getElem?_eq_none (by omega), List.getElem?_eq_none (by omega)]; rfl
  have c : ∀ {γ : Type} (l : List (Option γ)), (l.filter Option.isSome).length =
      ((l.map Option.isSome).filter id).length := by
    intro γ l; simp [List.filter_map]
  rw [c, c, e]

/-- the four steps of `swap` -/
theorem swap_run {k : Kind} {W : World α} {v w : Nat} {s o : VecS α} (hv : W.vars[v]? = some (some s))
    (hw : W.vars[w]? = some (some o)) :
    runW k (swapProg W.vars.length v w) W =
      .ok (⟨W.led, (W.vars.set v (some { o with led := W.led })).set w (some { s with led := W.led }) ++ [none]⟩,
        [false, false, false, false]) := by
  have hlv := (List.getElem?_eq_some_iff.mp hv).1
  have hlw := (List.getElem?_eq_some_iff.mp hw).1
  have hvar := var_of hv
  simp only [swapProg, runW, WOp.run, hvar, bind, Except.bind, pure, Except.pure, moveCtor]
  by_cases hvw : v = w
  · subst hvw
    rw [hw] at hv; cases hv
    have h1 : (⟨W.led, W.vars.set v (some (movedFrom { s with led := W.led })) ++ [some { s with led := W.led }]⟩ : World α).var v =
        .ok { movedFrom { s with led := W.led } with led := W.led } :=
      var_of (by simp only; rw [List.getElem?_append_left (by simpa using hlv), List.getElem?_set_self hlv])
    have h2 : (⟨W.led, W.vars.set v (some (movedFrom { s with led := W.led })) ++ [some { s with led := W.led }]⟩ : World α).var W.vars.length =
        .ok { s with led := W.led } :=
      var_of (s := { s with led := W.led }) (by simp)
    simp only [h1, if_true, h2, if_neg (show ¬ v = W.vars.length by omega)]
    rw [moveAssign_null rfl rfl]
    simp only
    rw [var_of (s := { movedFrom { s with led := W.led } with led := W.led })
      (by simp only; rw [List.getElem?_set_self (by simp)])]
    simp [dtor, movedFrom, List.set_append, hlv]
  · have h1 : (⟨W.led, W.vars.set v (some (movedFrom { s with led := W.led })) ++ [some { s with led := W.led }]⟩ : World α).var v =
        .ok { movedFrom { s with led := W.led } with led := W.led } :=
      var_of (by simp only; rw [List.getElem?_append_left (by simpa using hlv), List.getElem?_set_self hlv])
    have h2 : (⟨W.led, W.vars.set v (some (movedFrom { s with led := W.led })) ++ [some { s with led := W.led }]⟩ : World α).var w =
        .ok { o with led := W.led } :=
      var_of (by simp only; rw [List.getElem?_append_left (by simpa using hlw), List.getElem?_set_ne hvw, hw])
    simp only [h1, h2, if_neg hvw]
    rw [moveAssign_null rfl rfl]
    simp only
    rw [var_of (v := w) (s := movedFrom { o with led := W.led })
        (by simp only; rw [List.getElem?_set_self (by simp; omega)]; rfl),
      var_of (v := W.vars.length) (s := { s with led := W.led })
        (by simp only; rw [List.getElem?_set_ne (by omega), List.getElem?_set_ne (by omega)]; simp)]
    simp only [if_neg (show ¬ w = W.vars.length by omega)]
    rw [moveAssign_null rfl rfl]
    simp only
    rw [var_of (v := W.vars.length) (s := { movedFrom { s with led := W.led } with led := W.led })
      (by simp only; rw [List.getElem?_set_self (by simp)])]
    simp [dtor, movedFrom, List.set_append, hlv, hlw]

theorem vwRun_append {k : Kind} (ops ops' : List (WOp α)) (L L1 L2 : List (Option (List α))) (e1 e2 : List Bool)
    (h1 : Spec.vwRun k ops L = some (L1, e1)) (h2 : Spec.vwRun k ops' L1 = some (L2, e2)) :
    Spec.vwRun k (ops ++ ops') L = some (L2, e1 ++ e2) := by
  induction ops generalizing L e1 with
  | nil =>
    simp only [Spec.vwRun, Option.some.injEq, Prod.mk.injEq] at h1
    obtain ⟨rfl, rfl⟩ := h1
    simpa using h2
  | cons op ops ih =>
    simp only [Spec.vwRun, bind, Option.bind] at h1
    simp only [List.cons_append, Spec.vwRun, bind, Option.bind]
    cases hs : Spec.vwStep k op L with
    | none => rw [hs] at h1; cases h1
    | some r =>
      rw [hs] at h1
      simp only at h1 ⊢
      cases h3 : Spec.vwRun k ops r.1 with
      | none => rw [h3] at h1; cases h1
      | some r2 =>
        rw [h3] at h1
        simp only [Option.some.injEq, Prod.mk.injEq] at h1
        obtain ⟨rfl, rfl⟩ := h1
        rw [ih r.1 r2.2 h3]
        rfl

theorem valueOf_some {L : List (Option (List α))} {v : Nat} {l : List α} :
    Spec.valueOf L v = some l ↔ L[v]? = some (some l) := by
  unfold Spec.valueOf
  cases hx : L[v]? with
  | none => simp
  | some o => cases o <;> simp

/-- a history of calls on one variable -/
theorem vwRun_calls {k : Kind} (v : Nat) (calls : List (Op α)) (L : List (Option (List α))) (l : List α)
    (hv : Spec.valueOf L v = some l) (hend : k = .managed → Spec.endHistory calls l) :
    Spec.vwRun k (calls.map (.on v)) L =
      some (L.set v (some (Spec.vecRun calls l).1), (Spec.vecRun calls l).2) := by
  induction calls generalizing L l with
  | nil =>
    have := set_self _ _ _ (valueOf_some.mp hv)
    simp [Spec.vwRun, Spec.vecRun, this]
  | cons op calls ih =>
    have hop : k = .managed → Spec.endOp op l := fun hk => (hend hk).1
    have hlt := (List.getElem?_eq_some_iff.mp (valueOf_some.mp hv)).1
    simp only [List.map_cons, Spec.vwRun, Spec.vwStep, hv, bind, Option.bind, if_pos hop]
    have hend' : k = .managed → Spec.endHistory calls (Spec.vecCall op l).1 := by
      intro hk
      have := (hend hk).2
      unfold Spec.vecCall
      cases hs : Spec.vecStep op l <;> rw [hs] at this <;> exact this
    rw [ih (L.set v (some (Spec.vecCall op l).1)) (Spec.vecCall op l).1
      (valueOf_some.mpr (by rw [List.getElem?_set_self hlt])) hend']
    simp only [List.set_set, Spec.vecRun, Spec.vecCall]
    cases hs : Spec.vecStep op l <;> rfl

end VecS
end Efp
