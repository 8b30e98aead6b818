import Verif.CyclicView

/-!
# What a slot of a cyclic container holds
-/

namespace Efp
namespace Cyclic

open Spec

variable {α : Type}

theorem wrap_mod {n off i : Nat} (ho : off < n) (hi : i < n) : wrap n off i = (off + i) % n := by
  unfold wrap
  split
  · rw [Nat.mod_eq_of_lt (by assumption)]
  · rw [Nat.mod_eq_sub_mod (by omega), Nat.mod_eq_of_lt (by omega)]

theorem mod_cases {n p : Nat} (hp : p < 2 * n) : p = p % n ∨ p = n + p % n := by
  by_cases h : p < n
  · exact .inl (Nat.mod_eq_of_lt h).symm
  · right
    rw [Nat.mod_eq_sub_mod (by omega), Nat.mod_eq_of_lt (by omega)]
    omega

theorem Vcb.slot_run {s : VcbS α} {vs w : List α} (h : Rep s vs w w) {p m : Nat} (hp : p < 2 * s.n) (hm : m < s.n)
    (e : (s.off + m) % s.n = p % s.n) {a : α} (ha : w[m]? = some a) : onMem (Mem.read p) s = .ok a s := by
  have hc : s.mem.cells[p]? = some (.live a) := by
    rw [h.cells]
    apply getElem?_live
    rcases mod_cases hp with hp | hp
    · rw [hp, ← e, ← wrap_mod h.off hm, h.lo m hm, ha]
    · rw [hp, ← e, ← wrap_mod h.off hm, h.hi m hm, ha]
  rw [onMem_ok (read_run hc)]

theorem Vcq.slot_run {k : Kind} {s : VcqS α} {q : List α} (h : Rep k s q) {p j : Nat} (hp : p < 2 * s.n)
    (e : (s.rd + j) % s.n = p % s.n) {a : α} (ha : q[j]? = some a) : onMem (Mem.read p) s = .ok a s := by
  have hj : j < s.n := Nat.lt_of_lt_of_le (List.getElem?_eq_some_iff.1 ha).1 h.le
  have hc : s.mem.cells[p]? = some (.live a) := by
    rcases mod_cases hp with hp | hp
    · rw [hp, ← e, ← wrap_mod h.rd hj]; exact h.lo j a ha
    · rw [hp, ← e, ← wrap_mod h.rd hj]; exact h.hi j a ha
  rw [onMem_ok (read_run hc)]

theorem Vcq.slot_dead {s : VcqS α} {q : List α} (h : Rep .managed s q) {p : Nat} (hp : p < 2 * s.n)
    (hf : ∀ j < q.length, (s.rd + j) % s.n ≠ p % s.n) : onMem (Mem.read p) s = .ub .deadRead := by
  have hle := h.le
  have hr := h.free rfl (p % s.n) (Nat.mod_lt _ h.pos) (fun j hj => by
    rw [wrap_mod h.rd (by omega)]; exact hf j hj)
  have hc : s.mem.cells[p]? = some .raw := by
    rcases mod_cases hp with e | e
    · rw [e]; exact hr.1
    · rw [e]; exact hr.2
  unfold onMem Mem.read
  rw [hc]
  rfl

end Cyclic
end Efp
