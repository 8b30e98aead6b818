import Verif.Fmt.ErrorReport
import Verif.Fmt.MemLemmas
import Verif.Fmt.OpsLemmas
import Verif.Spec.ErrorReport
import Verif.Props.Fmt
import Verif.Props.MemBuf

/-!
# Lemmas on the reports of system errors
-/

namespace Efp
namespace Fmt

open Efp.Spec.Fmt Efp.Spec.MemBuf Efp.Props

theorem exact_within_le (lim : Nat) (hlim : lim < 2 ^ 64) : ∀ (l : List Op) (m : Nat), Exact l →
    m + (opsText l).length ≤ lim → Within lim m l
  | [], _, _, _ => trivial
  | o :: l, m, h, hm => by
    have e : opsText (o :: l) = o.text ++ opsText l := rfl
    rw [e, List.length_append] at hm
    refine ⟨?_, exact_within_le lim hlim l _ ?_ (by omega)⟩
    · cases o with
      | reserve n =>
        have : n ≤ (opsText l).length := h.1
        exact .inl ⟨by omega, hlim⟩
      | _ => trivial
    · cases o with
      | reserve n => exact h.2
      | _ => exact h

/-- operations on a buffer that has room for them -/
theorem room_ops (fails : Nat → Nat → Bool) {F : Heap} {old : Cells} {b : Buf Mem} (h : Mem.Inv F old b []) (ops : List Op)
    (hx : Exact ops) (hs : b.size + (opsText ops).length ≤ b.capacity) :
    ∃ b', runOps (Mem.kind fails) ops b = .ok b' ∧ Mem.Inv F (old ++ (opsText ops).map some) b' [] ∧
      b'.capacity = b.capacity := by
  have hsz : b.size = old.length := h.2.2.2.1
  have hc : b.capacity < 2 ^ 64 := Nat.lt_of_le_of_lt h.2.1 (by decide)
  obtain ⟨b', h1, h2, h3, _⟩ := (Mem.law_room fails F old hc b.rest.next).runOps_ok ops b ⟨h, rfl, rfl⟩
    (exact_within_le _ hc ops _ hx (by omega)) (by omega)
  exact ⟨b', h1, inv_shift.mp h2, h3⟩

/-- the law of a buffer that may allocate: its capacity never shrinks -/
theorem Mem.law_least (fails : Nat → Nat → Bool) (F : Heap) (old : Cells) (C : Nat) {req : Nat} (hreq : req < 2 ^ 64) :
    (Mem.kind fails).Law (fun v t => Mem.Inv F old v t ∧ C ≤ v.capacity) ((∃ a n, fails a n = true) ∨ maxSize < req)
      old.length req req where
  lim_lt := hreq
  lim_req := Nat.le_refl _
  size_le b t h := ⟨h.1.1, Nat.lt_of_le_of_lt h.1.2.1 (by decide), Nat.le_of_eq h.1.2.2.2.1⟩
  grow b t n h hn _ hr := by
    rcases Mem.grow_ok fails h.1 hn with ⟨b', h1, h2, h3, h4, _⟩ | ⟨h1, h2⟩
    · exact .inl ⟨b', h1, ⟨h2, by have := h.2; omega⟩, by have := h.1.1; omega⟩
    · refine .inr ⟨?_, b, h2, h⟩
      rcases h1 with h1 | h1
      · exact .inl ⟨_, _, h1⟩
      · exact .inr (by omega)
  store b t c h hb _ := by
    obtain ⟨r, h1, h2, _⟩ := Mem.store_ok fails h.1 hb c
    exact ⟨r, h1, h2, h.2⟩

theorem errorCodeSize_eq {code : Int} (h : ArgOk (.int code)) :
    errorCodeSize code = .ok (8 + (showIntDefault code).length) ∧ (showIntDefault code).length ≤ 11 := by
  obtain ⟨h1, h2⟩ := h
  have habs : (if code < 0 then (2 ^ 32 - (code % 2 ^ 32).toNat) % 2 ^ 32 else (code % 2 ^ 32).toNat) = code.natAbs
      ∧ code.natAbs < 2 ^ 32 := by
    split <;> omega
  have hl : (Nat.toDigits 10 code.natAbs).length ≤ 10 := by
    rw [Nat.length_toDigits_le_iff (by omega) (by omega)]; omega
  unfold errorCodeSize
  simp only [habs.1]
  rw [countDigits_eq (.inl rfl) habs.2, Res.bind_ok]
  unfold showIntDefault
  by_cases hn : code < 0
  · simp only [if_pos hn, List.length_append, List.length_cons, List.length_nil]
    exact ⟨by congr 1; omega, by omega⟩
  · simp only [if_neg hn, List.length_append, List.length_nil]
    exact ⟨by congr 1; omega, by omega⟩

theorem two_fields (a c : Arg) (ha : ArgOk a) (hc : ArgOk c) (s t : Str) (hs : showDefault a = some s) (ht : showDefault c = some t) :
    ∃ ops, vformatToOps "{}{}".toList (makeArgs [(none, a), (none, c)]) = .ok ops ∧ opsText ops = s ++ t ∧ Exact ops := by
  have hok : ∀ p ∈ [((none : Option Str), a), (none, c)], ArgOk p.2 := by
    intro p hp
    simp only [List.mem_cons, List.not_mem_nil, or_false] at hp
    rcases hp with rfl | rfl
    · exact ha
    · exact hc
  have h := C93_automatic [(none, a), (none, c)] (by simp) hok 2 (by simp) [s, t] (by
    simp only [List.take_succ_cons, List.take_zero, List.mapM_cons, List.mapM_nil, hs, ht]; rfl)
  obtain ⟨ops, h1, h2, h3⟩ := (ops_of_format hok).1 _ h
  exact ⟨ops, h1, by simpa using h2, h3⟩

theorem room_format (fails : Nat → Nat → Bool) {F : Heap} {old : Cells} {b : Buf Mem} (h : Mem.Inv F old b [])
    (a c : Arg) (ha : ArgOk a) (hc : ArgOk c) (s t : Str) (hs : showDefault a = some s) (ht : showDefault c = some t)
    (hr : b.size + (s ++ t).length ≤ b.capacity) :
    ∃ b', formatToBuffer fails "{}{}".toList [(none, a), (none, c)] b = .ok b' ∧
      Mem.Inv F (old ++ (s ++ t).map some) b' [] ∧ b'.capacity = b.capacity := by
  obtain ⟨ops, h1, h2, h3⟩ := two_fields a c ha hc s t hs ht
  unfold formatToBuffer
  rw [h1]
  have := room_ops fails h ops h3 (by rw [h2]; exact hr)
  rw [h2] at this
  exact this

/-- the report that needs no memory, on a buffer of at least the size of a new one -/
theorem errorCode_ok (fails : Nat → Nat → Bool) {F : Heap} {old : Cells} {b : Buf Mem} (h : Mem.Inv F old b [])
    (hcap : inlineSize ≤ b.capacity) {code : Int} (hc : ArgOk (.int code)) {message : Str} (hm : Bytes message) :
    ∃ b', formatErrorCode fails code message b = .ok b' ∧ Mem.Inv F ((errorLine message code).map some) b' [] := by
  obtain ⟨e1, e2⟩ := errorCodeSize_eq hc
  have h500 : inlineSize = 500 := rfl
  have h0 : b.tryResize (Mem.kind fails) 0 = .ok { b with size := 0 } := by
    unfold Buf.tryResize Buf.tryReserve
    rw [if_neg (by omega), Run.andThen_ok, if_pos (by omega)]
  have hi := inv_clear h
  have hb : ∀ s : Str, (∀ c ∈ s, c.toNat < 256) → ArgOk (.cstring 1 s) := fun s hs => ⟨by omega, hs⟩
  have hlen : (errorLine message code).length ≤ 500 := by
    unfold errorLine
    simp only
    split
    · assumption
    · simp only [List.length_append]; have : "error ".toList.length = 6 := rfl; omega
  unfold formatErrorCode
  rw [h0, Run.andThen_ok, e1]
  simp only
  have hw : wrapSub inlineSize (8 + (showIntDefault code).length) = 500 - (8 + (showIntDefault code).length) :=
    wrapSub_eq (by omega) (by decide)
  have l6 : "error ".toList.length = 6 := rfl
  have l2 : ": ".toList.length = 2 := rfl
  have hfull : (message ++ ": ".toList ++ ("error ".toList ++ showIntDefault code)).length =
      message.length + (8 + (showIntDefault code).length) := by
    simp only [List.length_append]; omega
  by_cases hfit : message.length ≤ wrapSub inlineSize (8 + (showIntDefault code).length)
  · rw [if_pos hfit]
    rw [hw] at hfit
    have eL : errorLine message code = message ++ ": ".toList ++ ("error ".toList ++ showIntDefault code) := by
      unfold errorLine; simp only; rw [if_pos (by omega)]
    rw [eL] at hlen ⊢
    obtain ⟨b1, g1, g2, g3⟩ := room_format fails hi (.string message) (.cstring 1 ": ".toList) hm
      (hb _ (by decide)) message ": ".toList rfl rfl (by simp only [List.length_append]; omega)
    rw [g1, Run.andThen_ok]
    have s1 : b1.size = message.length + 2 := by
      have := g2.2.2.2.1
      simpa using this
    have c1 : b1.capacity = b.capacity := g3
    obtain ⟨b2, k1, k2, k3⟩ := room_format fails g2 (.cstring 1 "error ".toList) (.int code) (hb _ (by decide)) hc
      "error ".toList (showIntDefault code) rfl rfl (by simp only [List.length_append]; omega)
    rw [k1, Run.andThen_ok]
    have s2 : b2.size = (message ++ ": ".toList ++ ("error ".toList ++ showIntDefault code)).length := by
      have := k2.2.2.2.1
      simp only [List.nil_append, List.length_append, List.length_map, List.length_nil, Nat.add_zero] at this ⊢
      exact this
    rw [if_pos (by omega)]
    refine ⟨b2, rfl, ?_⟩
    rw [List.nil_append, ← List.map_append] at k2
    exact k2
  · rw [if_neg hfit, Run.andThen_ok]
    rw [hw] at hfit
    have eL : errorLine message code = "error ".toList ++ showIntDefault code := by
      unfold errorLine; simp only; rw [if_neg (by omega)]
    rw [eL] at hlen ⊢
    obtain ⟨b2, k1, k2, k3⟩ := room_format fails hi (.cstring 1 "error ".toList) (.int code) (hb _ (by decide)) hc
      "error ".toList (showIntDefault code) rfl rfl (by simp only [List.length_append] at hlen ⊢; omega)
    rw [k1, Run.andThen_ok]
    have s2 : b2.size = ("error ".toList ++ showIntDefault code).length := by
      have := k2.2.2.2.1
      simpa using this
    rw [if_pos (by omega)]
    refine ⟨b2, rfl, ?_⟩
    rw [List.nil_append] at k2
    exact k2

/-- `format_system_error` on such a buffer -/
theorem systemError_ok (fails : Nat → Nat → Bool) {F : Heap} {old : Cells} {b : Buf Mem} (h : Mem.Inv F old b [])
    (hcap : inlineSize ≤ b.capacity) {code : Int} (hc : ArgOk (.int code)) {message : Str} (hm : Bytes message)
    (what : Option Str) (hw : ∀ t, what = some t → old.length + t.length ≤ maxSize) :
    ∃ b' l, formatSystemError fails what code message b = .ok b' ∧ Mem.Inv F l b' [] ∧
      ((∃ t, what = some t ∧ l = old ++ t.map some) ∨ l = (errorLine message code).map some ∧
        ∀ t, what = some t → b.capacity < old.length + t.length ∧ ∃ a n, fails a n = true) := by
  have hsz : b.size = old.length := h.2.2.2.1
  unfold formatSystemError
  cases what with
  | none =>
    obtain ⟨b', h1, h2⟩ := errorCode_ok fails h hcap hc hm
    exact ⟨b', _, h1, h2, .inr ⟨rfl, nofun⟩⟩
  | some t =>
    have ht := hw t rfl
    simp only
    by_cases hr : b.size + t.length ≤ b.capacity
    · have hC : b.capacity < 2 ^ 64 := Nat.lt_of_le_of_lt h.2.1 (by decide)
      rcases (Mem.law_room fails F old hC b.rest.next).pushAll_got t b [] ⟨h, rfl, rfl⟩
        (by simp only [List.length_nil]; omega) with ⟨b', h1, h2, _⟩ | ⟨h1, _⟩
      · rw [h1]
        exact ⟨b', _, rfl, inv_shift.mp h2, .inl ⟨t, rfl, rfl⟩⟩
      · exact h1.elim
    · rcases (Mem.law_least fails F old inlineSize (req := maxSize) (by decide)).pushAll_got t b [] ⟨h, hcap⟩
        (by simp only [List.length_nil]; omega) with ⟨b', h1, h2, _⟩ | ⟨ht, b', s, h1, _, h2, h3⟩
      · rw [h1]
        exact ⟨b', _, rfl, inv_shift.mp h2, .inl ⟨t, rfl, rfl⟩⟩
      · rw [h1]
        obtain ⟨b'', g1, g2⟩ := errorCode_ok fails (inv_shift.mp h2) h3 hc hm
        refine ⟨b'', _, g1, g2, .inr ⟨rfl, fun u hu => ?_⟩⟩
        cases hu
        refine ⟨by omega, ht.resolve_right (Nat.lt_irrefl _)⟩

end Fmt
end Efp
