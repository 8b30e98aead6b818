import Verif.LayoutLemmas
import Verif.Spec.Layout

/-!
# C166: elements lie in bytes of their own, at addresses their types allow
-/

namespace Efp.Props
open Efp.Layout Efp.Spec

theorem objectType_iff (T : Ty) : ObjectType T ↔ Full T := by
  unfold ObjectType Full Ok P2
  constructor
  · rintro ⟨a, b, c⟩; exact ⟨⟨a, b⟩, c⟩
  · rintro ⟨⟨a, b⟩, c⟩; exact ⟨a, b, c⟩

theorem mem_tys {As : List Obj} {T : Ty} (h : T ∈ tys As) : ∃ A ∈ As, A.ty = T := by
  induction As with
  | nil => exact absurd h (by simp [tys])
  | cons A As ih =>
    rcases List.mem_cons.mp (by simpa [tys] using h) with h | h
    · exact ⟨A, List.mem_cons_self .., h.symm⟩
    · obtain ⟨B, hB, he⟩ := ih h
      exact ⟨B, List.mem_cons_of_mem _ hB, he⟩

theorem tys_mem {As : List Obj} {A : Obj} (h : A ∈ As) : A.ty ∈ tys As := by
  induction As with
  | nil => exact absurd h (by simp)
  | cons B As ih =>
    rcases List.mem_cons.mp h with rfl | h
    · simp [tys]
    · simp [tys, ih h]

theorem tys_eq (As : List Obj) : tys As = As.map Obj.ty := by
  induction As with
  | nil => rfl
  | cons A As ih => simp [tys, ih]

theorem allNameable_mem {As : List Obj} (h : AllNameable As) {A : Obj} (hA : A ∈ As) : Nameable A := by
  induction As with
  | nil => exact absurd hA (by simp)
  | cons B As ih =>
    obtain ⟨h1, h2⟩ : Nameable B ∧ AllNameable As := by simpa [AllNameable] using h
    rcases List.mem_cons.mp hA with rfl | hA
    · exact h1
    · exact ih h2 hA

theorem enumStorage_ok {ts : List Ty} (hne : ts ≠ []) (h : ∀ t ∈ ts, Ok t) :
    Ok ⟨maxOf (ts.map Ty.size), maxOf (ts.map Ty.align)⟩ := by
  refine ⟨maxOf_align hne h, ?_⟩
  obtain ⟨t, ts', rfl⟩ := List.exists_cons_of_ne_nil hne
  have h1 := (h t (List.mem_cons_self ..)).2
  have h2 : t.size ≤ maxOf ((t :: ts').map Ty.size) := le_maxOf (List.mem_map_of_mem (List.mem_cons_self ..))
  show 0 < maxOf ((t :: ts').map Ty.size)
  omega

theorem tys_ne {As : List Obj} (h : As ≠ []) : tys As ≠ [] := by
  rw [tys_eq]; simpa using h

mutual
theorem full_of (o : Obj) (h : Nameable o) : Full o.ty ∧ ∀ m ∈ o.members, Ok m := by
  cases o with
  | plain T => exact ⟨by simpa [Obj.ty] using (objectType_iff T).mp (by simpa [Nameable] using h), by simp [Obj.members]⟩
  | array n A =>
    obtain ⟨hn, hA⟩ : 0 < n ∧ Nameable A := by simpa [Nameable] using h
    have hf := (full_of A hA).1
    have hm : ∀ m ∈ (Obj.array n A).members, Ok m := by
      simpa [Obj.members] using rawStorage_ok hf hn
    refine ⟨?_, hm⟩
    rw [Obj.ty]; exact classTy_full (by simp) hm
  | arrVec n A =>
    obtain ⟨hn, hA⟩ : 0 < n ∧ Nameable A := by simpa [Nameable] using h
    have hf := (full_of A hA).1
    have hm : ∀ m ∈ (Obj.arrVec n A).members, Ok m := by
      simpa [Obj.members] using ⟨rawStorage_ok hf hn, word_ok⟩
    refine ⟨?_, hm⟩
    rw [Obj.ty]; exact classTy_full (by simp) hm
  | vcb n A =>
    obtain ⟨hn, hA⟩ : 0 < n ∧ Nameable A := by simpa [Nameable] using h
    have hf := (full_of A hA).1
    have hm : ∀ m ∈ (Obj.vcb n A).members, Ok m := by
      simpa [Obj.members] using ⟨rawStorage_ok hf (by omega), word_ok⟩
    refine ⟨?_, hm⟩
    rw [Obj.ty]; exact classTy_full (by simp) hm
  | vcq n A =>
    obtain ⟨hn, hA⟩ : 0 < n ∧ Nameable A := by simpa [Nameable] using h
    have hf := (full_of A hA).1
    have hm : ∀ m ∈ (Obj.vcq n A).members, Ok m := by
      simpa [Obj.members] using ⟨rawStorage_ok hf (by omega), word_ok⟩
    refine ⟨?_, hm⟩
    rw [Obj.ty]; exact classTy_full (by simp) hm
  | enum As =>
    obtain ⟨hne, hAs⟩ : As ≠ [] ∧ AllNameable As := by simpa [Nameable] using h
    have hf := full_all As hAs
    have hm : ∀ m ∈ (Obj.enum As).members, Ok m := by
      simp only [Obj.members, List.mem_cons, List.not_mem_nil, or_false]
      rintro m (rfl | rfl)
      · exact enumStorage_ok (tys_ne hne) (fun t ht => (hf t ht).1)
      · exact ⟨⟨0, rfl⟩, by decide⟩
    refine ⟨?_, hm⟩
    rw [Obj.ty]; exact classTy_full (by simp) hm
  | tuple As =>
    obtain ⟨hne, hAs⟩ : As ≠ [] ∧ AllNameable As := by simpa [Nameable] using h
    have hf := full_all As hAs
    have hm : ∀ m ∈ (Obj.tuple As).members, Ok m := fun m hm => (hf m (by simpa [Obj.members] using hm)).1
    refine ⟨?_, hm⟩
    rw [Obj.ty]; exact classTy_full (tys_ne hne) hm
theorem full_all (As : List Obj) (h : AllNameable As) : ∀ t ∈ tys As, Full t := by
  cases As with
  | nil => simp [tys]
  | cons A As =>
    obtain ⟨h1, h2⟩ : Nameable A ∧ AllNameable As := by simpa [AllNameable] using h
    intro t ht
    rcases List.mem_cons.mp (by simpa [tys] using ht) with rfl | ht
    · exact (full_of A h1).1
    · exact full_all As h2 t ht
end

/-- **C166** (types).  `sizeof` of every container, `Enum` and `Tuple` is a multiple of its alignment, and the alignment is a
power of two, however the types are nested: they can be elements of arrays and vectors themselves. -/
theorem C166_types (o : Obj) (h : Nameable o) : ObjectType o.ty := (objectType_iff _).mpr (full_of o h).1

theorem raw_step {A : Ty} (hA : Full A) {n p b : Nat} {ms : List Ty} (hok : ∀ m ∈ rawStorage A n :: ms, Ok m)
    (hp : (classTy (rawStorage A n :: ms)).align ∣ p) {i : Nat} (hi : i < n)
    (hb : b = element (p + offset (rawStorage A n :: ms) 0) A i) :
    A.align ∣ b ∧ p ≤ b ∧ b + A.size ≤ p + (classTy (rawStorage A n :: ms)).size := by
  obtain ⟨h1, h2⟩ := member_in hok hp (i := 0) (by simp)
  simp only [List.getElem_cons_zero] at h1 h2
  subst hb
  rw [rawStorage_eq hA n] at h1 h2 ⊢
  simp only at h1 h2 ⊢
  have h3 : i * A.size + A.size ≤ n * A.size := by
    have := Nat.mul_le_mul_right A.size (Nat.succ_le_of_lt hi)
    simpa [Nat.succ_mul] using this
  unfold element
  refine ⟨Nat.dvd_add h1 (Nat.dvd_mul_left_of_dvd hA.2 i), by omega, by omega⟩

/-- One step into an object. -/
theorem held_in {o : Obj} (h : Nameable o) {p : Nat} (hp : o.ty.align ∣ p) {b : Nat} {y : Obj} (hy : (b, y) ∈ o.held p) :
    Nameable y ∧ y.ty.align ∣ b ∧ p ≤ b ∧ b + y.ty.size ≤ p + o.ty.size := by
  have hm := (full_of o h).2
  cases o with
  | plain T => simp [Obj.held] at hy
  | array n A =>
    obtain ⟨hn, hA⟩ : 0 < n ∧ Nameable A := by simpa [Nameable] using h
    obtain ⟨i, hi, hb, rfl⟩ : ∃ i, i < n ∧ element (p + offset (Obj.array n A).members 0) A.ty i = b ∧ A = y := by
      simpa [Obj.held] using hy
    rw [Obj.ty] at hp ⊢
    exact ⟨hA, raw_step (full_of A hA).1 hm hp hi hb.symm⟩
  | arrVec n A =>
    obtain ⟨hn, hA⟩ : 0 < n ∧ Nameable A := by simpa [Nameable] using h
    obtain ⟨i, hi, hb, rfl⟩ : ∃ i, i < n ∧ element (p + offset (Obj.arrVec n A).members 0) A.ty i = b ∧ A = y := by
      simpa [Obj.held] using hy
    rw [Obj.ty] at hp ⊢
    exact ⟨hA, raw_step (full_of A hA).1 hm hp hi hb.symm⟩
  | vcb n A =>
    obtain ⟨hn, hA⟩ : 0 < n ∧ Nameable A := by simpa [Nameable] using h
    obtain ⟨i, hi, hb, rfl⟩ : ∃ i, i < 2 * n ∧ element (p + offset (Obj.vcb n A).members 0) A.ty i = b ∧ A = y := by
      simpa [Obj.held] using hy
    rw [Obj.ty] at hp ⊢
    exact ⟨hA, raw_step (full_of A hA).1 hm hp hi hb.symm⟩
  | vcq n A =>
    obtain ⟨hn, hA⟩ : 0 < n ∧ Nameable A := by simpa [Nameable] using h
    obtain ⟨i, hi, hb, rfl⟩ : ∃ i, i < 2 * n ∧ element (p + offset (Obj.vcq n A).members 0) A.ty i = b ∧ A = y := by
      simpa [Obj.held] using hy
    rw [Obj.ty] at hp ⊢
    exact ⟨hA, raw_step (full_of A hA).1 hm hp hi hb.symm⟩
  | enum As =>
    obtain ⟨hne, hAs⟩ : As ≠ [] ∧ AllNameable As := by simpa [Nameable] using h
    obtain ⟨hyA, hb⟩ : y ∈ As ∧ p + offset (Obj.enum As).members 0 = b := by
      simpa [Obj.held] using hy
    rw [Obj.ty] at hp ⊢
    have hT := tys_mem hyA
    obtain ⟨h1, h2⟩ := member_in hm (by simpa [Obj.members] using hp) (i := 0) (by simp [Obj.members])
    simp only [Obj.members, List.getElem_cons_zero] at h1 h2
    have h3 := align_dvd (fun t ht => (full_all As hAs t ht).1) hT
    have h4 : y.ty.size ≤ maxOf ((tys As).map Ty.size) := le_maxOf (List.mem_map_of_mem hT)
    simp only [Obj.members] at hb
    refine ⟨allNameable_mem hAs hyA, ?_, by omega, by omega⟩
    rw [← hb]; exact Nat.dvd_trans h3 h1
  | tuple As =>
    obtain ⟨hne, hAs⟩ : As ≠ [] ∧ AllNameable As := by simpa [Nameable] using h
    obtain ⟨i, hi, he⟩ := List.mem_iff_getElem.mp hy
    have hlen : ((Obj.tuple As).held p).length = As.length := by
      simp [Obj.held, offsets_length, tys_eq]
    have hiA : i < As.length := by omega
    have hit : i < (tys As).length := by simpa [tys_eq] using hiA
    have hi0 : i < (offsets 0 (tys As)).length := by simpa [offsets_length] using hit
    simp only [Obj.held, List.getElem_zipWith, Prod.mk.injEq] at he
    obtain ⟨hb, rfl⟩ := he
    rw [Obj.ty] at hp ⊢
    obtain ⟨h1, h2⟩ := member_in hm hp (i := i) hit
    have hty : (Obj.tuple As).members[i] = As[i].ty := by simp [Obj.members, tys_eq]
    rw [hty] at h1 h2
    have ho : offset (Obj.tuple As).members i = (offsets 0 (tys As))[i] := by
      show (offsets 0 (tys As)).getD i 0 = _
      rw [getD_lt hi0]
    rw [ho] at h1 h2
    refine ⟨allNameable_mem hAs (List.getElem_mem hiA), by rw [← hb]; exact h1, by omega, ?_⟩
    have h2' : (offsets 0 (tys As))[i] + As[i].ty.size ≤ (classTy (tys As)).size := h2
    omega

/-- **C166** (inline objects).  Put an object at an address its type allows.  Then every object inside it, at any depth of
nesting of arrays, bounded vectors, cyclic buffers, queues, `Enum`s, `Maybe`s and tuples, lies at an address its own type
allows, and all its bytes belong to the outer object. -/
theorem C166_inline (o : Obj) (h : Nameable o) (p : Nat) (hp : o.ty.align ∣ p) (a : Nat) (x : Obj)
    (hx : Inside p o a x) : x.ty.align ∣ a ∧ p ≤ a ∧ a + x.ty.size ≤ p + o.ty.size := by
  induction hx with
  | self p o => exact ⟨hp, Nat.le_refl _, Nat.le_refl _⟩
  | deeper hm _ ih =>
    obtain ⟨h1, h2, h3, h4⟩ := held_in h hp hm
    obtain ⟨h5, h6, h7⟩ := ih h1 h2
    exact ⟨h5, by omega, by omega⟩

theorem apart_of_le {a s b t : Nat} (h : a + s ≤ b) : Apart a s b t := by
  intro x hx; omega

theorem element_apart (q : Nat) (A : Ty) {i j : Nat} (h : i < j) : element q A i + A.size ≤ element q A j := by
  have := Nat.mul_le_mul_right A.size (Nat.succ_le_of_lt h)
  rw [Nat.succ_mul] at this
  unfold element; omega

/-- **C166** (elements).  Two different slots of a container, and two different parts of a tuple, share no byte. -/
theorem C166_apart (o : Obj) (h : Nameable o) (he : ∀ As, o ≠ .enum As) (p i j : Nat) (hij : i < j)
    (hj : j < (o.held p).length) :
    Apart (o.held p)[i].1 (o.held p)[i].2.ty.size (o.held p)[j].1 (o.held p)[j].2.ty.size := by
  have hm := (full_of o h).2
  apply apart_of_le
  cases o with
  | plain T => simp [Obj.held] at hj
  | array n A => simpa [Obj.held] using element_apart _ A.ty hij
  | arrVec n A => simpa [Obj.held] using element_apart _ A.ty hij
  | vcb n A => simpa [Obj.held] using element_apart _ A.ty hij
  | vcq n A => simpa [Obj.held] using element_apart _ A.ty hij
  | enum As => exact absurd rfl (he As)
  | tuple As =>
    have hlen : ((Obj.tuple As).held p).length = As.length := by
      simp [Obj.held, offsets_length, tys_eq]
    have hjt : j < (tys As).length := by rw [tys_eq]; simpa using (by omega : j < As.length)
    have hit : i < (tys As).length := by omega
    have hap := offsets_apart (tys As) hm 0 i j hit hjt hij
    rw [getD_lt (by rwa [offsets_length]), getD_lt (by rwa [offsets_length])] at hap
    have hty : (tys As)[i] = (As[i]'(by omega)).ty := by simp [tys_eq]
    rw [hty] at hap
    simp only [Obj.held, List.getElem_zipWith]
    omega

theorem offset_apart {ms : List Ty} (hok : ∀ m ∈ ms, Ok m) {i j : Nat} (hij : i < j) (hj : j < ms.length) :
    offset ms i + (ms[i]'(by omega)).size ≤ offset ms j := offsets_apart ms hok 0 i j (by omega) hj hij

theorem raw_fields {A : Ty} (hA : Full A) {n p b : Nat} {ms : List Ty} (hok : ∀ m ∈ rawStorage A n :: ms, Ok m)
    {i : Nat} (hi : i < n) (hb : b = element (p + offset (rawStorage A n :: ms) 0) A i)
    {k : Nat} (hk : 0 < k) (hkl : k < (rawStorage A n :: ms).length) :
    b + A.size ≤ p + offset (rawStorage A n :: ms) k := by
  have h1 := offset_apart hok hk hkl
  simp only [List.getElem_cons_zero] at h1
  have hs : (rawStorage A n).size = n * A.size := by rw [rawStorage_eq hA n]
  have h3 : i * A.size + A.size ≤ n * A.size := by
    have := Nat.mul_le_mul_right A.size (Nat.succ_le_of_lt hi)
    simpa [Nat.succ_mul] using this
  subst hb
  unfold element
  omega

/-- **C166** (book-keeping).  The sizes and pointers a container keeps, and the number of the alternative an `Enum` keeps,
share no byte with any slot or alternative: writing an element never changes them. -/
theorem C166_fields (o : Obj) (h : Nameable o) (p b : Nat) (y : Obj) (hy : (b, y) ∈ o.held p)
    (f s : Nat) (hf : (f, s) ∈ o.fields p) : Apart b y.ty.size f s := by
  have hm := (full_of o h).2
  apply apart_of_le
  cases o with
  | plain T => simp [Obj.held] at hy
  | array n A => simp [Obj.fields] at hf
  | tuple As => simp [Obj.fields] at hf
  | arrVec n A =>
    obtain ⟨hn, hA⟩ : 0 < n ∧ Nameable A := by simpa [Nameable] using h
    obtain ⟨i, hi, hb, rfl⟩ : ∃ i, i < n ∧ element (p + offset (Obj.arrVec n A).members 0) A.ty i = b ∧ A = y := by
      simpa [Obj.held] using hy
    obtain ⟨rfl, rfl⟩ : f = p + offset (Obj.arrVec n A).members 1 ∧ s = 8 := by simpa [Obj.fields] using hf
    exact raw_fields (full_of A hA).1 hm hi hb.symm (by omega) (by simp)
  | vcb n A =>
    obtain ⟨hn, hA⟩ : 0 < n ∧ Nameable A := by simpa [Nameable] using h
    obtain ⟨i, hi, hb, rfl⟩ : ∃ i, i < 2 * n ∧ element (p + offset (Obj.vcb n A).members 0) A.ty i = b ∧ A = y := by
      simpa [Obj.held] using hy
    obtain ⟨rfl, rfl⟩ : f = p + offset (Obj.vcb n A).members 1 ∧ s = 8 := by simpa [Obj.fields] using hf
    exact raw_fields (full_of A hA).1 hm hi hb.symm (by omega) (by simp)
  | vcq n A =>
    obtain ⟨hn, hA⟩ : 0 < n ∧ Nameable A := by simpa [Nameable] using h
    obtain ⟨i, hi, hb, rfl⟩ : ∃ i, i < 2 * n ∧ element (p + offset (Obj.vcq n A).members 0) A.ty i = b ∧ A = y := by
      simpa [Obj.held] using hy
    have hf' : (f = p + offset (Obj.vcq n A).members 1 ∧ s = 8) ∨ (f = p + offset (Obj.vcq n A).members 2 ∧ s = 8) ∨
        (f = p + offset (Obj.vcq n A).members 3 ∧ s = 8) := by simpa [Obj.fields] using hf
    rcases hf' with ⟨rfl, rfl⟩ | ⟨rfl, rfl⟩ | ⟨rfl, rfl⟩ <;>
      exact raw_fields (full_of A hA).1 hm hi hb.symm (by omega) (by simp)
  | enum As =>
    obtain ⟨hyA, hb⟩ : y ∈ As ∧ p + offset (Obj.enum As).members 0 = b := by
      simpa [Obj.held] using hy
    obtain ⟨rfl, rfl⟩ : f = p + offset (Obj.enum As).members 1 ∧ s = 1 := by simpa [Obj.fields] using hf
    have h1 := offset_apart hm (i := 0) (j := 1) (by omega) (by simp [Obj.members])
    have h4 : y.ty.size ≤ maxOf ((tys As).map Ty.size) := le_maxOf (List.mem_map_of_mem (tys_mem hyA))
    simp only [Obj.members, List.getElem_cons_zero] at h1 hb ⊢
    omega

/-- The fields lie inside the object too, aligned, and apart from each other. -/
theorem C166_fields_inside (o : Obj) (h : Nameable o) (p : Nat) (hp : o.ty.align ∣ p) :
    (∀ f s, (f, s) ∈ o.fields p → s ∣ f ∧ p ≤ f ∧ f + s ≤ p + o.ty.size) ∧
    ∀ i j, ∀ _ : i < j, ∀ hj : j < (o.fields p).length,
      Apart (o.fields p)[i].1 (o.fields p)[i].2 (o.fields p)[j].1 (o.fields p)[j].2 := by
  have hm := (full_of o h).2
  have key : ∀ (ms : List Ty), ms = o.members → o.ty = classTy ms → ∀ (k : Nat) (hk : k < ms.length) (s : Nat),
      ms[k] = ⟨s, s⟩ → s ∣ p + offset ms k ∧ p ≤ p + offset ms k ∧ p + offset ms k + s ≤ p + o.ty.size := by
    rintro ms rfl hty k hk s hs
    obtain ⟨h1, h2⟩ := member_in hm (by rw [← hty]; exact hp) hk
    rw [hs] at h1 h2
    rw [hty]
    exact ⟨h1, by omega, by simp only at h2; omega⟩
  cases o with
  | plain T => simp [Obj.fields]
  | array n A => simp [Obj.fields]
  | tuple As => simp [Obj.fields]
  | arrVec n A =>
    refine ⟨?_, fun i j hij hj => by simp [Obj.fields] at hj; omega⟩
    intro f s hf
    obtain ⟨rfl, rfl⟩ : f = p + offset (Obj.arrVec n A).members 1 ∧ s = 8 := by simpa [Obj.fields] using hf
    exact key _ rfl (by rw [Obj.ty]; rfl) 1 (by simp [Obj.members]) 8 rfl
  | vcb n A =>
    refine ⟨?_, fun i j hij hj => by simp [Obj.fields] at hj; omega⟩
    intro f s hf
    obtain ⟨rfl, rfl⟩ : f = p + offset (Obj.vcb n A).members 1 ∧ s = 8 := by simpa [Obj.fields] using hf
    exact key _ rfl (by rw [Obj.ty]; rfl) 1 (by simp [Obj.members]) 8 rfl
  | enum As =>
    refine ⟨?_, fun i j hij hj => by simp [Obj.fields] at hj; omega⟩
    intro f s hf
    obtain ⟨rfl, rfl⟩ : f = p + offset (Obj.enum As).members 1 ∧ s = 1 := by simpa [Obj.fields] using hf
    exact key _ rfl (by rw [Obj.ty]; rfl) 1 (by simp [Obj.members]) 1 rfl
  | vcq n A =>
    constructor
    · intro f s hf
      have hf' : (f = p + offset (Obj.vcq n A).members 1 ∧ s = 8) ∨ (f = p + offset (Obj.vcq n A).members 2 ∧ s = 8) ∨
          (f = p + offset (Obj.vcq n A).members 3 ∧ s = 8) := by simpa [Obj.fields] using hf
      rcases hf' with ⟨rfl, rfl⟩ | ⟨rfl, rfl⟩ | ⟨rfl, rfl⟩
      · exact key _ rfl (by rw [Obj.ty]; rfl) 1 (by simp [Obj.members]) 8 rfl
      · exact key _ rfl (by rw [Obj.ty]; rfl) 2 (by simp [Obj.members]) 8 rfl
      · exact key _ rfl (by rw [Obj.ty]; rfl) 3 (by simp [Obj.members]) 8 rfl
    · intro i j hij hj
      have hj3 : j < 3 := by simpa [Obj.fields] using hj
      apply apart_of_le
      have h12 := offset_apart hm (i := 1) (j := 2) (by omega) (by simp [Obj.members])
      have h23 := offset_apart hm (i := 2) (j := 3) (by omega) (by simp [Obj.members])
      simp only [Obj.members, List.getElem_cons_zero, List.getElem_cons_succ, word] at h12 h23
      have hc : (i = 0 ∧ j = 1) ∨ (i = 0 ∧ j = 2) ∨ (i = 1 ∧ j = 2) := by omega
      rcases hc with ⟨rfl, rfl⟩ | ⟨rfl, rfl⟩ | ⟨rfl, rfl⟩ <;>
        simp only [Obj.fields, Obj.members, List.getElem_cons_zero, List.getElem_cons_succ, word] <;> omega

/-- **C166** (how many).  An `Array<A, n>` and an `ArrVec<A, n>` have `n` slots, a `Vcb<A, n>` and a `Vcq<A, n>` twice as many
(each element is kept twice), one next to the other; an `Enum` can hold each of its alternatives, at its own address. -/
theorem C166_slots (n : Nat) (A : Obj) (hA : Nameable A) (hn : 0 < n) (p : Nat) :
    (Obj.array n A).held p = (List.range n).map (fun i => (p + i * A.ty.size, A)) ∧
    (Obj.arrVec n A).held p = (List.range n).map (fun i => (p + i * A.ty.size, A)) ∧
    (Obj.vcb n A).held p = (List.range (n + n)).map (fun i => (p + i * A.ty.size, A)) ∧
    (Obj.vcq n A).held p = (List.range (n + n)).map (fun i => (p + i * A.ty.size, A)) ∧
    ∀ As, As ≠ [] → AllNameable As → (Obj.enum As).held p = As.map (fun B => (p, B)) := by
  have h0 : ∀ (m : Ty) (ms : List Ty), Ok m → offset (m :: ms) 0 = 0 := by
    intro m ms hm
    simp only [offset, offsets, List.getD_cons_zero]
    exact alignUp_zero hm.1.pos
  have hf := (full_of A hA).1
  refine ⟨?_, ?_, ?_, ?_, ?_⟩
  · simp [Obj.held, Obj.members, h0 _ _ (rawStorage_ok hf hn), element]
  · simp [Obj.held, Obj.members, h0 _ _ (rawStorage_ok hf hn), element]
  · simp [Obj.held, Obj.members, h0 _ _ (rawStorage_ok hf (show 0 < n + n by omega)), element, Nat.two_mul]
  · simp [Obj.held, Obj.members, h0 _ _ (rawStorage_ok hf (show 0 < n + n by omega)), element, Nat.two_mul]
  · intro As hne hAs
    have := enumStorage_ok (tys_ne hne) (fun t ht => (full_all As hAs t ht).1)
    simp [Obj.held, Obj.members, h0 _ _ this]

/-- **C166** (heap, partial).  A vector whose element type is not over-aligned (its alignment divides what `::operator new`
guarantees) has its elements at addresses the type allows, inside the block asked for, and apart.  Missing: over-aligned
types, see `C166_refuted`. -/
theorem C166_heap_partial (A : Obj) (hA : Nameable A) (hal : A.ty.align ≤ 16) (n p : Nat) (hp : newMayReturn p) :
    (∀ i, i < n → A.ty.align ∣ element p A.ty i ∧ p ≤ element p A.ty i ∧
      element p A.ty i + A.ty.size ≤ p + allocateBytes A.ty n) ∧
    ∀ i j, i < j → Apart (element p A.ty i) A.ty.size (element p A.ty j) A.ty.size := by
  have hf := (full_of A hA).1
  constructor
  · intro i hi
    have h1 : A.ty.align ∣ p := Nat.dvd_trans (hf.1.1.dvd ⟨4, rfl⟩ hal) hp
    have h3 : i * A.ty.size + A.ty.size ≤ n * A.ty.size := by
      have := Nat.mul_le_mul_right A.ty.size (Nat.succ_le_of_lt hi)
      simpa [Nat.succ_mul] using this
    refine ⟨Nat.dvd_add h1 (Nat.dvd_mul_left_of_dvd hf.2 i), Nat.le_add_right _ _, ?_⟩
    unfold element allocateBytes
    omega
  · intro i j hij
    exact apart_of_le (element_apart p A.ty hij)

/-- **C166** as one would want it of vectors is false: elements of a type with alignment 32 (a SIMD vector, a cache line) may
be put at addresses the type does not allow, because the block comes from the plain `::operator new`. -/
theorem C166_refuted : ¬ ∀ (A : Obj), Nameable A → ∀ n p, newMayReturn p →
    ∀ i, i < n → A.ty.align ∣ element p A.ty i := by
  intro h
  have := h (.plain ⟨32, 32⟩) (by simp only [Nameable, ObjectType]; exact ⟨⟨5, rfl⟩, by decide, by decide⟩) 1 16
    (by simp [newMayReturn]) 0 (by decide)
  revert this; decide

/-- Every over-aligned type is affected: some address `::operator new` may return is wrong for every first element. -/
theorem C166_overaligned (A : Obj) (hal : 16 < A.ty.align) :
    ∃ p, newMayReturn p ∧ ¬ A.ty.align ∣ element p A.ty 0 := by
  refine ⟨16, ⟨1, rfl⟩, ?_⟩
  intro h
  have h1 : A.ty.align ∣ 16 := by simpa [element] using h
  have := Nat.le_of_dvd (by omega) h1
  omega

/-- A queue of `Maybe<Tuple<char, double>>`s, all of it meets the hypotheses. -/
def sampleObj : Obj := .vcq 3 (.enum [.plain ⟨1, 1⟩, .tuple [.plain ⟨1, 1⟩, .plain ⟨8, 8⟩]])

example : Nameable sampleObj := by
  simp only [sampleObj, Nameable, AllNameable, ObjectType]
  exact ⟨by decide, by decide, ⟨⟨0, rfl⟩, by decide, by decide⟩,
    ⟨by decide, ⟨⟨0, rfl⟩, by decide, by decide⟩, ⟨⟨3, rfl⟩, by decide, by decide⟩, trivial⟩, trivial⟩

/-- It takes 6 slots of 24 bytes and three words, and the `double` of the last slot lies at offset 128. -/
example : sampleObj.ty = ⟨168, 8⟩ ∧
    Inside 1000 sampleObj 1128 (.plain ⟨8, 8⟩) := by
  refine ⟨by decide +kernel, ?_⟩
  refine .deeper (b := 1120) (y := .enum [.plain ⟨1, 1⟩, .tuple [.plain ⟨1, 1⟩, .plain ⟨8, 8⟩]]) ?_
    (.deeper (b := 1120) (y := .tuple [.plain ⟨1, 1⟩, .plain ⟨8, 8⟩]) ?_ (.deeper (b := 1128) (y := .plain ⟨8, 8⟩) ?_ (.self _ _)))
  · simp only [sampleObj, Obj.held]
    exact List.mem_map.mpr ⟨5, by simp, Prod.ext (by decide +kernel) rfl⟩
  · simp only [Obj.held]
    exact List.mem_map.mpr ⟨_, List.mem_cons_of_mem _ (List.mem_cons_self ..), Prod.ext (by decide +kernel) rfl⟩
  · simp [Obj.held, tys, Obj.ty, offsets, alignUp]

end Efp.Props
