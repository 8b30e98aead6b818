import Verif.Spec.IO
import Verif.VectorLemmas2
import Verif.StringLemmas

/-!
# Lemmas about files
-/

namespace Efp
namespace Io

open Efp.Spec
open Cyclic.Vcb (left right)
open VecS (Rep)

theorem left_ok {σ τ β : Type} {m : Cpp σ β} {s s' : σ} {b : β} (t : τ) (h : m s = .ok b s') :
    left m (s, t) = .ok b (s', t) := by simp [left, h]

theorem right_ok {σ τ β : Type} {m : Cpp τ β} {t t' : τ} {b : β} (s : σ) (h : m t = .ok b t') :
    right m (s, t) = .ok b (s, t') := by simp [right, h]

/-! ## the stream -/

theorem fgetc_cons {s : Stream} {c : Nat} {t : List Nat} (h : remaining s = c :: t) :
    fgetc s = .ok (c : Int) { s with pos := s.pos + 1 } ∧ remaining { s with pos := s.pos + 1 } = t := by
  obtain ⟨bytes, pos, bad⟩ := s
  cases bad with
  | none =>
    simp only [remaining] at h ⊢
    have h0 : bytes[pos]? = some c := by
      have := congrArg (·[0]?) h
      simpa using this
    refine ⟨by simp [fgetc, h0], ?_⟩
    rw [← List.drop_drop, h, List.drop_one, List.tail_cons]
  | some e =>
    simp only [remaining] at h ⊢
    have h0 : (bytes.take e)[pos]? = some c := by
      have := congrArg (·[0]?) h
      simpa using this
    have hlt : pos < e := by
      rw [List.getElem?_take] at h0
      split at h0
      · assumption
      · cases h0
    have h1 : bytes[pos]? = some c := by rwa [List.getElem?_take, if_pos hlt] at h0
    refine ⟨?_, ?_⟩
    · have : ¬ e ≤ pos := by omega
      simp [fgetc, h1, this]
    · rw [← List.drop_drop, h, List.drop_one, List.tail_cons]

theorem fgetc_nil {s : Stream} (h : remaining s = []) : fgetc s = .ok eof s := by
  obtain ⟨bytes, pos, bad⟩ := s
  cases bad with
  | none =>
    simp only [remaining, List.drop_eq_nil_iff] at h
    have : bytes[pos]? = none := by simp [h]
    simp [fgetc, this]
  | some e =>
    simp only [remaining, List.drop_eq_nil_iff, List.length_take] at h
    by_cases he : e ≤ pos
    · simp [fgetc, he]
    · have : bytes[pos]? = none := by simp; omega
      simp [fgetc, he, this]

/-! ## one line -/

theorem readLoop_nl (line t : List Nat) (hl : 10 ∉ line) (s : Stream) (hs : remaining s = line ++ 10 :: t)
    (b : Str) (w : List Nat) (hb : Rep .trivial b w) (fuel : Nat) (hf : line.length < fuel) :
    ∃ b', readLoop fuel (s, b) = .ok 10 ({ s with pos := s.pos + line.length + 1 }, b') ∧ Rep .trivial b' (w ++ line)
      ∧ (line = [] → b' = b) ∧ (line ≠ [] → b'.ptr = .block) ∧
      remaining { s with pos := s.pos + line.length + 1 } = t := by
  induction line generalizing s b w fuel with
  | nil =>
    obtain ⟨fuel, rfl⟩ : ∃ f, fuel = f + 1 := ⟨fuel - 1, by omega⟩
    obtain ⟨h1, h2⟩ := fgetc_cons (by simpa using hs)
    refine ⟨b, ?_, by simpa using hb, fun _ => rfl, fun h => absurd rfl h, by simpa using h2⟩
    unfold readLoop
    rw [Cpp.bind_ok (left_ok b h1)]
    simp
  | cons c line ih =>
    obtain ⟨fuel, rfl⟩ : ∃ f, fuel = f + 1 := ⟨fuel - 1, by omega⟩
    obtain ⟨h1, h2⟩ := fgetc_cons (by simpa using hs)
    have hc : c ≠ 10 := by intro h; simp [h] at hl
    have hl' : 10 ∉ line := by intro h; simp [h] at hl
    obtain ⟨b1, hb1, hr1, hp1, -⟩ := VecS.pushBack_run hb c
    obtain ⟨b2, hb2, hr2, he2, hp2, hrem⟩ := ih hl' _ h2 b1 _ hr1 fuel (by simp at hf; omega)
    have hpos : s.pos + 1 + line.length + 1 = s.pos + (line.length + 1) + 1 := by omega
    simp only [hpos] at hb2 hrem
    refine ⟨b2, ?_, by simpa using hr2, by simp, ?_, by simpa using hrem⟩
    · unfold readLoop
      rw [Cpp.bind_ok (left_ok b h1), if_pos (by unfold eof; omega)]
      rw [Cpp.bind_ok (right_ok _ (by simpa using hb1))]
      simpa using hb2
    · intro _
      by_cases h : line = []
      · rw [he2 h]; exact hp1
      · exact hp2 h

theorem readLoop_eof (line : List Nat) (hl : 10 ∉ line) (s : Stream) (hs : remaining s = line)
    (b : Str) (w : List Nat) (hb : Rep .trivial b w) (fuel : Nat) (hf : line.length < fuel) :
    ∃ b', readLoop fuel (s, b) = .ok eof ({ s with pos := s.pos + line.length }, b') ∧ Rep .trivial b' (w ++ line)
      ∧ (line = [] → b' = b) ∧ (line ≠ [] → b'.ptr = .block) ∧
      remaining { s with pos := s.pos + line.length } = [] := by
  induction line generalizing s b w fuel with
  | nil =>
    obtain ⟨fuel, rfl⟩ : ∃ f, fuel = f + 1 := ⟨fuel - 1, by omega⟩
    have h1 := fgetc_nil hs
    refine ⟨b, ?_, by simpa using hb, fun _ => rfl, fun h => absurd rfl h, by simpa using hs⟩
    unfold readLoop
    rw [Cpp.bind_ok (left_ok b h1)]
    simp
  | cons c line ih =>
    obtain ⟨fuel, rfl⟩ : ∃ f, fuel = f + 1 := ⟨fuel - 1, by omega⟩
    obtain ⟨h1, h2⟩ := fgetc_cons hs
    have hc : c ≠ 10 := by intro h; simp [h] at hl
    have hl' : 10 ∉ line := by intro h; simp [h] at hl
    obtain ⟨b1, hb1, hr1, hp1, -⟩ := VecS.pushBack_run hb c
    obtain ⟨b2, hb2, hr2, he2, hp2, hrem⟩ := ih hl' _ h2 b1 _ hr1 fuel (by simp at hf; omega)
    have hpos : s.pos + 1 + line.length = s.pos + (line.length + 1) := by omega
    simp only [hpos] at hb2 hrem
    refine ⟨b2, ?_, by simpa using hr2, by simp, ?_, by simpa using hrem⟩
    · unfold readLoop
      rw [Cpp.bind_ok (left_ok b h1), if_pos (by unfold eof; omega)]
      rw [Cpp.bind_ok (right_ok _ (by simpa using hb1))]
      simpa using hb2
    · intro _
      by_cases h : line = []
      · rw [he2 h]; exact hp1
      · exact hp2 h

/-- the object `read_line` delivers for a line -/
def LineBuf (b : Str) (line : List Nat) : Prop :=
  Rep .trivial b line ∧ (line = [] → b.ptr = .null) ∧ (line ≠ [] → b.ptr = .block)

theorem readLine_nl {line t : List Nat} (hl : 10 ∉ line) {s : Stream} (hs : remaining s = line ++ 10 :: t)
    {fuel : Nat} (hf : line.length < fuel) :
    ∃ b, readLine fuel s = .ok (some b) { s with pos := s.pos + line.length + 1 } ∧ LineBuf b line ∧
      remaining { s with pos := s.pos + line.length + 1 } = t := by
  obtain ⟨b, hb, hr, h0, h1, h2⟩ := readLoop_nl line t hl s hs VecS.mk0 [] (VecS.rep_mk0 _ _) fuel hf
  refine ⟨b, ?_, ⟨by simpa using hr, fun h => by rw [h0 h]; rfl, h1⟩, h2⟩
  unfold readLine
  rw [hb]
  simp [eof, VecS.moveCtor]

theorem readLine_eof {line : List Nat} (hl : 10 ∉ line) (hne : line ≠ []) {s : Stream} (hs : remaining s = line)
    {fuel : Nat} (hf : line.length < fuel) :
    ∃ b, readLine fuel s = .ok (some b) { s with pos := s.pos + line.length } ∧ LineBuf b line ∧
      remaining { s with pos := s.pos + line.length } = [] := by
  obtain ⟨b, hb, hr, h0, h1, h2⟩ := readLoop_eof line hl s hs VecS.mk0 [] (VecS.rep_mk0 _ _) fuel hf
  refine ⟨b, ?_, ⟨by simpa using hr, fun h => absurd h hne, h1⟩, h2⟩
  unfold readLine
  rw [hb]
  have : b.size ≠ 0 := by
    rw [hr.1]; simpa using hne
  simp [eof, VecS.moveCtor, this]

theorem readLine_none {s : Stream} (hs : remaining s = []) {fuel : Nat} (hf : 0 < fuel) :
    readLine fuel s = .ok none s := by
  obtain ⟨b, hb, hr, h0, h1, h2⟩ := readLoop_eof [] (by simp) s hs VecS.mk0 [] (VecS.rep_mk0 _ _) fuel hf
  unfold readLine
  rw [hb, h0 rfl]
  simp [eof, VecS.mk0]

/-! ## all lines -/

/-- the object `read_lines` stores for a line: for an empty one, a `String` whose data pointer is uninitialised -/
def LineObj (v : Str) (line : List Nat) : Prop :=
  v.contents = .ok line ∧ (line = [] → v.ptr = .wild ∧ v.size = 0) ∧ (line ≠ [] → Rep .trivial v line)

/-- the stored objects, line by line -/
inductive LineObjs : List Str → List (List Nat) → Prop where
  | nil : LineObjs [] []
  | cons {v : Str} {line : List Nat} {vs : List Str} {L : List (List Nat)} (h : LineObj v line) (t : LineObjs vs L) :
    LineObjs (v :: vs) (line :: L)

theorem value_run {σ : Type} {b : Str} {line : List Nat} (h : LineBuf b line) :
    ∃ v, value (σ := σ) b = pure v ∧ LineObj v line := by
  obtain ⟨hr, h0, h1⟩ := h
  by_cases hl : line = []
  · have := VecS.copyCtor_null hr (h0 hl) {}
    refine ⟨_, by unfold value; rw [this], ?_, fun _ => ⟨rfl, rfl⟩, fun h => absurd hl h⟩
    subst hl
    rfl
  · obtain ⟨t, ht, htr, hp, -⟩ := VecS.copyCtor_run hr (h1 hl) {}
    exact ⟨t, by unfold value; rw [ht], htr.contents, fun h => absurd h hl, fun _ => htr⟩

theorem linesOf_nil : LinesOf [] [] := ⟨by simp, by simp [linesText]⟩

theorem linesOf_one {line : List Nat} (hl : 10 ∉ line) (hne : line ≠ []) : LinesOf [line] line := by
  refine ⟨by simpa using hl, ?_⟩
  rw [if_neg]
  · simp [linesText]
  · rintro (h | h)
    · exact hne h
    · exact hl (List.mem_of_getLast? h)

theorem linesOf_cons {line t : List Nat} {L : List (List Nat)} (hl : 10 ∉ line) (h : LinesOf L t) :
    LinesOf (line :: L) (line ++ 10 :: t) := by
  refine ⟨by simpa [hl] using h.1, ?_⟩
  have h2 := h.2
  have e : linesText (line :: L) = line ++ 10 :: linesText L := by simp [linesText]
  rw [e, h2]
  by_cases ht : t = []
  · subst ht
    simp
  · have hg : (line ++ 10 :: t).getLast? = t.getLast? := by
      obtain ⟨a, l, rfl⟩ : ∃ a l, t = a :: l := by cases t with
        | nil => exact absurd rfl ht
        | cons a l => exact ⟨a, l, rfl⟩
      rw [List.getLast?_append]
      simp only [List.getLast?_cons_cons]
      rw [List.getLast?_cons]
      rfl
    rw [hg]
    simp only [ht, false_or, List.append_eq_nil_iff, List.cons_ne_nil, and_false]
    split <;> simp

/-- a text splits at its first newline -/
theorem split_line (text : List Nat) :
    (10 ∉ text) ∨ ∃ line t, text = line ++ 10 :: t ∧ 10 ∉ line := by
  by_cases h : 10 ∈ text
  · right
    obtain ⟨l, t, rfl, hl⟩ := List.eq_append_cons_of_mem h
    exact ⟨l, t, rfl, hl⟩
  · exact .inl h

theorem readLinesLoop_run (n : Nat) (s : Stream) (hn : (remaining s).length ≤ n) (V : VecS Str) (vs : List Str)
    (hV : Rep .managed V vs) (inner fuel : Nat) (hi : n < inner) (hf : n < fuel) :
    ∃ s' V' ws L, readLinesLoop inner fuel (s, V) = .ok () (s', V') ∧ Rep .managed V' (vs ++ ws) ∧
      LineObjs ws L ∧ LinesOf L (remaining s) ∧ remaining s' = [] := by
  induction n using Nat.strongRecOn generalizing s V vs fuel with
  | _ n ih =>
    obtain ⟨fuel, rfl⟩ : ∃ f, fuel = f + 1 := ⟨fuel - 1, by omega⟩
    have step : ∀ (b : Str) (line : List Nat) (s1 : Stream), readLine inner s = .ok (some b) s1 → LineBuf b line →
        (remaining s1).length < (remaining s).length →
        (∀ L, LinesOf L (remaining s1) → LinesOf (line :: L) (remaining s)) →
        ∃ s' V' ws L, readLinesLoop inner (fuel + 1) (s, V) = .ok () (s', V') ∧ Rep .managed V' (vs ++ ws) ∧
          LineObjs ws L ∧ LinesOf L (remaining s) ∧ remaining s' = [] := by
      intro b line s1 hb hlb hlen hL
      obtain ⟨v, hv, hvo⟩ := value_run (σ := Stream × VecS Str) hlb
      obtain ⟨V1, hV1, hr1, -⟩ := VecS.pushBack_run hV v
      obtain ⟨s', V', ws, L, h1, h2, h3, h4, h5⟩ := ih (remaining s1).length (by omega) s1 (by omega) V1 _ hr1 fuel
        (by omega) (by omega)
      refine ⟨s', V', v :: ws, line :: L, ?_, by simpa using h2, LineObjs.cons hvo h3, hL L h4, h5⟩
      unfold readLinesLoop
      rw [Cpp.bind_ok (left_ok V hb)]
      simp only [hv]
      rw [Cpp.pure_bind, Cpp.bind_ok (right_ok s1 hV1)]
      exact h1
    by_cases h0 : remaining s = []
    · refine ⟨s, V, [], [], ?_, by simpa using hV, .nil, by rw [h0]; exact linesOf_nil, h0⟩
      unfold readLinesLoop
      rw [Cpp.bind_ok (left_ok V (readLine_none h0 (by omega)))]
      rfl
    · rcases split_line (remaining s) with hl | ⟨line, t, ht, hl⟩
      · obtain ⟨b, hb, hlb, hrem⟩ := readLine_eof hl h0 rfl (fuel := inner) (by omega)
        refine step b _ _ hb hlb ?_ ?_
        · rw [hrem]; exact List.length_pos_iff.mpr h0
        · intro L hL
          rw [hrem] at hL
          have : L = [] := by
            have h2 := hL.2
            cases L with
            | nil => rfl
            | cons a L => simp [linesText] at h2
          subst this
          exact linesOf_one hl h0
      · have hlen : line.length < inner := by
          have : (remaining s).length = line.length + (t.length + 1) := by rw [ht]; simp
          omega
        obtain ⟨b, hb, hlb, hrem⟩ := readLine_nl hl ht (fuel := inner) hlen
        refine step b _ _ hb hlb ?_ ?_
        · rw [hrem, ht]; simp; omega
        · intro L hL
          rw [hrem] at hL
          rw [ht]
          exact linesOf_cons hl hL

theorem readLines_run (s : Stream) (fuel : Nat) (hf : (remaining s).length < fuel) :
    ∃ s' V ws L, readLines fuel s = .ok V s' ∧ Rep .managed V ws ∧ LineObjs ws L ∧
      LinesOf L (remaining s) ∧ remaining s' = [] := by
  obtain ⟨s', V, ws, L, h1, h2, h3, h4, h5⟩ := readLinesLoop_run _ s (Nat.le_refl _) VecS.mk0 [] (VecS.rep_mk0 _ _)
    fuel fuel hf hf
  refine ⟨s', V, ws, L, ?_, by simpa using h2, h3, h4, h5⟩
  unfold readLines
  rw [h1]

/-- a text has at most one list of lines -/
theorem linesText_inj {L M : List (List Nat)} (hL : ∀ l ∈ L, 10 ∉ l) (hM : ∀ l ∈ M, 10 ∉ l)
    (h : linesText L = linesText M) : L = M := by
  induction L generalizing M with
  | nil => cases M with
    | nil => rfl
    | cons m M => simp [linesText] at h
  | cons l L ih => cases M with
    | nil => simp [linesText] at h
    | cons m M =>
      have e : l ++ 10 :: linesText L = m ++ 10 :: linesText M := by simpa [linesText] using h
      have hlm : l = m ∧ linesText L = linesText M := by
        have hl : 10 ∉ l := hL l (by simp)
        have hm : 10 ∉ m := hM m (by simp)
        clear h ih hL hM
        induction l generalizing m with
        | nil => cases m with
          | nil => exact ⟨rfl, by simpa using e⟩
          | cons b m => simp at e; simp [← e.1] at hm
        | cons a l ih => cases m with
          | nil => simp at e; simp [e.1] at hl
          | cons b m =>
            simp at e
            have := ih m e.2 (by simp at hl; exact hl.2) (by simp at hm; exact hm.2)
            exact ⟨by rw [e.1, this.1], this.2⟩
      rw [hlm.1, ih (fun x hx => hL x (by simp [hx])) (fun x hx => hM x (by simp [hx])) hlm.2]

theorem LinesOf.unique {L M : List (List Nat)} {text : List Nat} (hL : LinesOf L text) (hM : LinesOf M text) : L = M :=
  linesText_inj hL.1 hM.1 (hL.2.trans hM.2.symm)

/-! ## destroying the lines -/

theorem at_run {V : VecS Str} {vs : List Str} (h : Rep .managed V vs) {i : Nat} {v : Str} (hv : vs[i]? = some v) :
    VecS.at_ i V = .ok v V := by
  obtain ⟨hp, hcap, rest, hcells, -⟩ := h.block_of_pos (by rintro rfl; simp at hv)
  have hlt : i < vs.length := by
    rcases Nat.lt_or_ge i vs.length with h | h
    · exact h
    · rw [List.getElem?_eq_none h] at hv; cases hv
  have hc : V.toMem.cells[i]? = some (.live v) := by
    rw [hcells, List.getElem?_append_left (by simpa using hlt)]
    simp [hv]
  unfold VecS.at_
  rw [VecS.onMem_block hp]
  unfold Mem.read
  simp only [hc, Out.mapState_ok]

theorem dtorElem_ok {V : VecS Str} {vs : List Str} (h : Rep .managed V vs) {i : Nat} {v : Str} {line : List Nat}
    (hv : vs[i]? = some v) (ho : LineObj v line) (hne : line ≠ []) : dtorElem i V = .ok () V := by
  obtain ⟨t, ht, -⟩ := VecS.dtor_run (ho.2.2 hne)
  unfold dtorElem
  rw [Cpp.bind_ok (at_run h hv), ht]
  rfl

theorem dtorElem_ub {V : VecS Str} {vs : List Str} (h : Rep .managed V vs) {i : Nat} {v : Str}
    (hv : vs[i]? = some v) (ho : LineObj v []) : dtorElem i V = .ub .wildPtr := by
  unfold dtorElem
  rw [Cpp.bind_ok (at_run h hv)]
  unfold VecS.dtor
  simp only [(ho.2.1 rfl).1]

theorem forall₂_get {ws : List Str} {L : List (List Nat)} (h : LineObjs ws L)
    {i : Nat} {v : Str} (hv : ws[i]? = some v) : ∃ l, L[i]? = some l ∧ LineObj v l := by
  induction h generalizing i with
  | nil => simp at hv
  | cons hr _ ih => cases i with
    | zero => simp at hv; subst hv; exact ⟨_, rfl, hr⟩
    | succ i => simpa using ih (by simpa using hv)

theorem dtors_ok {V : VecS Str} {ws : List Str} {L : List (List Nat)} (h : Rep .managed V ws)
    (ho : LineObjs ws L) (i n : Nat) (hin : i + n ≤ ws.length)
    (hne : ∀ (j : Nat) (l : List Nat), i ≤ j → j < i + n → L[j]? = some l → l ≠ []) : forUp dtorElem i n V = .ok () V := by
  induction n generalizing i with
  | zero => rfl
  | succ n ih =>
    have hlt : i < ws.length := by omega
    obtain ⟨l, hl, hlo⟩ := forall₂_get ho (List.getElem?_eq_getElem hlt)
    unfold forUp
    rw [Cpp.bind_ok (dtorElem_ok h (List.getElem?_eq_getElem hlt) hlo (hne i l (by omega) (by omega) hl))]
    exact ih (i + 1) (by omega) (fun j l h1 h2 => hne j l (by omega) (by omega))

theorem dtors_ub {V : VecS Str} {ws : List Str} {L : List (List Nat)} (h : Rep .managed V ws)
    (ho : LineObjs ws L) (i n : Nat) (hin : i + n ≤ ws.length) (k : Nat) (h1 : i ≤ k) (h2 : k < i + n)
    (hk : L[k]? = some []) : forUp dtorElem i n V = .ub .wildPtr := by
  induction n generalizing i with
  | zero => omega
  | succ n ih =>
    have hlt : i < ws.length := by omega
    obtain ⟨l, hl, hlo⟩ := forall₂_get ho (List.getElem?_eq_getElem hlt)
    unfold forUp
    by_cases hnil : l = []
    · subst hnil
      exact Cpp.bind_ub (dtorElem_ub h (List.getElem?_eq_getElem hlt) hlo)
    · rw [Cpp.bind_ok (dtorElem_ok h (List.getElem?_eq_getElem hlt) hlo hnil)]
      refine ih (i + 1) (by omega) ?_ (by omega)
      rcases Nat.lt_or_ge i k with h | h
      · exact h
      · have : k = i := by omega
        subst this
        rw [hl] at hk
        exact absurd (Option.some.inj hk) hnil

/-! ## handles -/

/-- the streams held by the variables, in order -/
def held (vars : List (Option FileObj)) : List Nat := vars.filterMap fun o => o.bind FileObj.file

/-- the variable is as its status says -/
def Agrees : Option FileObj → Status → Prop
  | none, .gone => True
  | some f, .holding => f.file.isSome
  | some f, .empty => f.file = none
  | _, _ => False

/-- every variable is as its status says -/
inductive AgreesAll : List (Option FileObj) → List Status → Prop where
  | nil : AgreesAll [] []
  | cons {o : Option FileObj} {x : Status} {vars : List (Option FileObj)} {st : List Status} (h : Agrees o x)
    (t : AgreesAll vars st) : AgreesAll (o :: vars) (x :: st)

/-- every stream ever opened is either closed or held by one variable or among the lost ones `L`, exactly once in
total -/
def Owned (L : List Nat) (w : World) : Prop := (held w.vars ++ (w.closed ++ L)).Perm (List.range w.opened)

variable {L : List Nat}

theorem AgreesAll.get {vars : List (Option FileObj)} {st : List Status} (h : AgreesAll vars st) {x : Nat} {a : Status}
    (ha : st[x]? = some a) : ∃ o, vars[x]? = some o ∧ Agrees o a := by
  induction h generalizing x with
  | nil => simp at ha
  | cons hr _ ih => cases x with
    | zero => simp at ha; subst ha; exact ⟨_, rfl, hr⟩
    | succ i => simpa using ih (by simpa using ha)

theorem AgreesAll.set {vars : List (Option FileObj)} {st : List Status} (h : AgreesAll vars st) (x : Nat)
    {o : Option FileObj} {a : Status} (ha : Agrees o a) : AgreesAll (vars.set x o) (st.set x a) := by
  induction h generalizing x with
  | nil => exact .nil
  | cons hr ht ih => cases x with
    | zero => exact .cons ha ht
    | succ i => exact .cons hr (ih i)

theorem AgreesAll.snoc {vars : List (Option FileObj)} {st : List Status} (h : AgreesAll vars st)
    {o : Option FileObj} {a : Status} (ha : Agrees o a) : AgreesAll (vars ++ [o]) (st ++ [a]) := by
  induction h with
  | nil => exact .cons ha .nil
  | cons hr ht ih => exact .cons hr ih

theorem AgreesAll.length {vars : List (Option FileObj)} {st : List Status} (h : AgreesAll vars st) :
    vars.length = st.length := by
  induction h with
  | nil => rfl
  | cons _ _ ih => simp [ih]

/-- overwriting a variable takes its stream out of those held and puts the new one in -/
theorem held_set {vars : List (Option FileObj)} {x : Nat} {o : Option FileObj} (h : vars[x]? = some o)
    (o' : Option FileObj) :
    ((o.bind FileObj.file).toList ++ held (vars.set x o')).Perm ((o'.bind FileObj.file).toList ++ held vars) := by
  induction vars generalizing x with
  | nil => simp at h
  | cons a vars ih => cases x with
    | zero =>
      simp at h; subst h
      have e : ∀ b : Option FileObj, held (b :: vars) = (b.bind FileObj.file).toList ++ held vars := by
        intro b; unfold held; rw [List.filterMap_cons]; cases b.bind FileObj.file <;> rfl
      rw [List.set_cons_zero, e, e]
      rw [← List.append_assoc, ← List.append_assoc]
      exact List.Perm.append_right _ List.perm_append_comm
    | succ i =>
      have e : ∀ (b : Option FileObj) (l : List (Option FileObj)),
          held (b :: l) = (b.bind FileObj.file).toList ++ held l := by
        intro b l; unfold held; rw [List.filterMap_cons]; cases b.bind FileObj.file <;> rfl
      have := ih (x := i) (by simpa using h)
      rw [List.set_cons_succ, e, e]
      rw [← List.append_assoc, ← List.append_assoc]
      refine (List.Perm.append_right _ List.perm_append_comm).trans ?_
      refine List.Perm.trans ?_ (List.Perm.append_right _ List.perm_append_comm)
      rw [List.append_assoc, List.append_assoc]
      exact List.Perm.append_left _ this

theorem held_snoc (vars : List (Option FileObj)) (o : Option FileObj) :
    held (vars ++ [o]) = held vars ++ (o.bind FileObj.file).toList := by
  unfold held
  rw [List.filterMap_append]
  refine congrArg _ ?_
  cases h : o.bind FileObj.file <;> simp [List.filterMap_cons, h]

theorem mem_held {vars : List (Option FileObj)} {x : Nat} {f : FileObj} {h : Nat} (hx : vars[x]? = some (some f))
    (hf : f.file = some h) : h ∈ held vars := by
  unfold held
  rw [List.mem_filterMap]
  exact ⟨some f, List.mem_of_getElem? hx, by simpa using hf⟩

theorem Owned.open_ {w : World} (h : Owned L w) {x : Nat} {f : FileObj} {n : Nat} (hx : w.vars[x]? = some (some f))
    (hf : f.file = some n) : n ∉ w.closed := by
  have hnd : (held w.vars ++ (w.closed ++ L)).Nodup := h.nodup_iff.mpr List.nodup_range
  intro hc
  exact (List.nodup_append.mp hnd).2.2 n (mem_held hx hf) n (List.mem_append_left _ hc) rfl

theorem var_run {w : World} {x : Nat} {f : FileObj} (h : w.vars[x]? = some (some f)) : var x w = .ok f w := by
  unfold var; rw [h]

theorem setVar_run (w : World) (x : Nat) (o : Option FileObj) :
    setVar x o w = .ok () { w with vars := w.vars.set x o } := rfl

theorem agrees_holding {o : Option FileObj} (h : Agrees o .holding) : ∃ f n, o = some f ∧ f.file = some n := by
  cases o with
  | none => exact h.elim
  | some f => obtain ⟨n, hn⟩ := Option.isSome_iff_exists.mp h; exact ⟨f, n, rfl, hn⟩

theorem agrees_empty {o : Option FileObj} (h : Agrees o .empty) : ∃ f, o = some f ∧ f.file = none := by
  cases o with
  | none => exact h.elim
  | some f => exact ⟨f, rfl, h⟩

theorem open_run {w : World} {st : List Status} (ha : AgreesAll w.vars st) (ho : Owned L w) (mode : List Nat) (ok : Bool) :
    ∃ w', (Op.open_ mode ok).run w = .ok () w' ∧ AgreesAll w'.vars (st ++ [if ok then .holding else .gone]) ∧ Owned L w' := by
  cases ok with
  | false =>
    refine ⟨{ w with vars := w.vars ++ [none] }, rfl, ha.snoc (a := .gone) (o := none) trivial, ?_⟩
    unfold Owned at ho ⊢
    simpa [held_snoc] using ho
  | true =>
    refine ⟨{ w with opened := w.opened + 1, vars := w.vars ++ [some ⟨some w.opened, none⟩] }, rfl,
      ha.snoc (by simp [Agrees]), ?_⟩
    unfold Owned
    simp only [held_snoc, List.range_succ, Option.bind_some, Option.toList_some]
    rw [List.append_assoc]
    refine (List.Perm.append_left _ List.perm_append_comm).trans ?_
    rw [← List.append_assoc]
    exact List.Perm.append_right _ ho

theorem move_run {w : World} {st st' : List Status} (ha : AgreesAll w.vars st) (ho : Owned L w) (src : Nat)
    (hs : fileStep st (.move src) = some st') :
    ∃ w', (Op.move src).run w = .ok () w' ∧ AgreesAll w'.vars st' ∧ Owned L w' := by
  simp only [fileStep] at hs
  split at hs
  · rename_i h
    cases hs
    obtain ⟨o, hx, hag⟩ := ha.get h
    obtain ⟨f, n, rfl, hf⟩ := agrees_holding hag
    refine ⟨{ w with vars := w.vars.set src (some (moveCtor f).2) ++ [some (moveCtor f).1] }, by
      simp only [Op.run]
      rw [Cpp.bind_ok (var_run hx), Cpp.bind_ok (setVar_run _ _ _), Cpp.modify_run], (ha.set src (a := .empty) (by simp [Agrees, moveCtor])).snoc (by simp [Agrees, moveCtor, hf]), ?_⟩
    unfold Owned
    simp only [held_snoc, moveCtor, Option.bind_some, hf, Option.toList_some]
    have := held_set hx (some { f with file := none })
    simp only [Option.bind_some, hf, Option.toList_some, Option.toList_none, List.nil_append] at this
    exact (List.Perm.append_right _ (List.perm_append_comm.trans this)).trans ho
  · rename_i h
    cases hs
    obtain ⟨o, hx, hag⟩ := ha.get h
    obtain ⟨f, rfl, hf⟩ := agrees_empty hag
    have hset : st.set src .empty = st := by
      apply List.ext_getElem?
      intro i
      rw [List.getElem?_set]
      split
      · rename_i e; subst e
        split
        · exact h.symm
        · rename_i h2; rw [List.getElem?_eq_none (by omega)] at h; cases h
      · rfl
    refine ⟨{ w with vars := w.vars.set src (some (moveCtor f).2) ++ [some (moveCtor f).1] }, by
      simp only [Op.run]
      rw [Cpp.bind_ok (var_run hx), Cpp.bind_ok (setVar_run _ _ _), Cpp.modify_run], by
        rw [← hset]
        exact (ha.set src (a := .empty) (by simp [Agrees, moveCtor])).snoc (by simp [Agrees, moveCtor, hf]), ?_⟩
    unfold Owned
    simp only [held_snoc, moveCtor, Option.bind_some, hf, Option.toList_none, List.append_nil]
    have := held_set hx (some { f with file := none })
    simp only [Option.bind_some, hf, Option.toList_none, List.nil_append] at this
    exact (List.Perm.append_right _ this).trans ho
  · cases hs

theorem set_same {st : List Status} {x : Nat} {a : Status} (h : st[x]? = some a) : st.set x a = st := by
  apply List.ext_getElem?
  intro i
  rw [List.getElem?_set]
  split
  · rename_i e; subst e
    split
    · exact h.symm
    · rename_i h2; rw [List.getElem?_eq_none (by omega)] at h; cases h
  · rfl

theorem assign_run {w : World} {st st' : List Status} (ha : AgreesAll w.vars st) (ho : Owned L w) (dst src : Nat)
    (hs : fileStep st (.assign dst src) = some st') :
    ∃ w', (Op.assign dst src).run w = .ok () w' ∧ AgreesAll w'.vars st' ∧ Owned L w' := by
  simp only [fileStep] at hs
  split at hs
  · rename_i hd hsrc
    cases hs
    obtain ⟨o, hx, hag⟩ := ha.get hd
    obtain ⟨f, rfl, hf⟩ := agrees_empty hag
    obtain ⟨o, hy, hag⟩ := ha.get hsrc
    obtain ⟨g, n, rfl, hg⟩ := agrees_holding hag
    have hne : dst ≠ src := by rintro rfl; rw [hd] at hsrc; cases hsrc
    refine ⟨{ w with vars := (w.vars.set dst (some (moveAssign f g).1)).set src (some (moveAssign f g).2) }, by
      simp only [Op.run]
      rw [Cpp.bind_ok (var_run hx), Cpp.bind_ok (var_run hy), if_neg hne, Cpp.bind_ok (setVar_run _ _ _), setVar_run],
      (ha.set dst (by simp [Agrees, moveAssign, hg])).set src (by simp [Agrees, moveAssign]), ?_⟩
    unfold Owned
    simp only [moveAssign]
    have h1 := held_set hx (some { f with file := g.file })
    have hy' : (w.vars.set dst (some { f with file := g.file }))[src]? = some (some g) := by
      rw [List.getElem?_set_ne hne]; exact hy
    have h2 := held_set hy' (some { g with file := none })
    simp only [Option.bind_some, hf, hg, Option.toList_none, Option.toList_some, List.nil_append] at h1 h2
    rw [hg]
    exact (List.Perm.append_right _ ((List.perm_append_left_iff _).mp (h2.trans h1))).trans ho
  · rename_i hd hsrc
    cases hs
    obtain ⟨o, hx, hag⟩ := ha.get hd
    obtain ⟨f, rfl, hf⟩ := agrees_empty hag
    obtain ⟨o, hy, hag⟩ := ha.get hsrc
    obtain ⟨g, rfl, hg⟩ := agrees_empty hag
    by_cases hne : dst = src
    · exact ⟨w, by
        simp only [Op.run]
        rw [Cpp.bind_ok (var_run hx), Cpp.bind_ok (var_run hy), if_pos hne]; rfl, ha, ho⟩
    refine ⟨{ w with vars := (w.vars.set dst (some (moveAssign f g).1)).set src (some (moveAssign f g).2) }, by
      simp only [Op.run]
      rw [Cpp.bind_ok (var_run hx), Cpp.bind_ok (var_run hy), if_neg hne, Cpp.bind_ok (setVar_run _ _ _), setVar_run],
      by
        have := (ha.set dst (a := .empty) (o := some (moveAssign f g).1) (by simp [Agrees, moveAssign, hg])).set src
          (a := .empty) (o := some (moveAssign f g).2) (by simp [Agrees, moveAssign])
        rw [set_same hd, set_same hsrc] at this
        exact this, ?_⟩
    unfold Owned
    simp only [moveAssign]
    have h1 := held_set hx (some { f with file := g.file })
    have hy' : (w.vars.set dst (some { f with file := g.file }))[src]? = some (some g) := by
      rw [List.getElem?_set_ne hne]; exact hy
    have h2 := held_set hy' (some { g with file := none })
    simp only [Option.bind_some, hf, hg, Option.toList_none, List.nil_append] at h1 h2
    rw [hg]
    exact (List.Perm.append_right _ (h2.trans h1)).trans ho
  · cases hs

theorem fclose_run {w : World} {h : Nat} (hc : h ∉ w.closed) (ok : Bool) :
    fclose h ok w = .ok ok { w with closed := h :: w.closed } := by
  unfold fclose; rw [if_neg hc]

theorem release {w : World} (ho : Owned L w) {x : Nat} {f : FileObj} {n : Nat} (hx : w.vars[x]? = some (some f))
    (hf : f.file = some n) (o' : Option FileObj) (ho' : o'.bind FileObj.file = none) :
    Owned L { w with closed := n :: w.closed, vars := w.vars.set x o' } := by
  unfold Owned
  have := held_set hx o'
  simp only [Option.bind_some, hf, ho', Option.toList_some, Option.toList_none, List.nil_append] at this
  have h2 : (held (w.vars.set x o') ++ n :: (w.closed ++ L)).Perm (n :: (held (w.vars.set x o') ++ (w.closed ++ L))) :=
    List.perm_middle
  exact (h2.trans (List.Perm.append_right (w.closed ++ L) this)).trans ho

theorem keep {w : World} (ho : Owned L w) {x : Nat} {f : FileObj} (hx : w.vars[x]? = some (some f))
    (hf : f.file = none) (o' : Option FileObj) (ho' : o'.bind FileObj.file = none) :
    Owned L { w with vars := w.vars.set x o' } := by
  unfold Owned
  have := held_set hx o'
  simp only [Option.bind_some, hf, ho', Option.toList_none, List.nil_append] at this
  exact (List.Perm.append_right (w.closed ++ L) this).trans ho

theorem close_run {w : World} {st st' : List Status} (ha : AgreesAll w.vars st) (ho : Owned L w) (x : Nat) (ok : Bool)
    (hs : fileStep st (.close x ok) = some st') :
    ∃ w', (Op.close x ok).run w = .ok () w' ∧ AgreesAll w'.vars st' ∧ Owned L w' := by
  simp only [fileStep] at hs
  split at hs
  · rename_i h
    cases ok with
    | false => cases hs
    | true =>
    cases hs
    obtain ⟨o, hx, hag⟩ := ha.get h
    obtain ⟨f, n, rfl, hf⟩ := agrees_holding hag
    have hcl : closeFile f true w = .ok (true, { f with file := none }) { w with closed := n :: w.closed } := by
      unfold closeFile
      simp only [hf]
      rw [Cpp.bind_ok (fclose_run (ho.open_ hx hf) true)]
      rfl
    refine ⟨{ w with closed := n :: w.closed, vars := w.vars.set x (some { f with file := none }) }, by
      simp only [Op.run]
      rw [Cpp.bind_ok (var_run hx), Cpp.bind_ok hcl, setVar_run], ha.set x (by simp [Agrees]), ?_⟩
    exact release ho hx hf _ rfl
  · rename_i h
    cases hs
    obtain ⟨o, hx, hag⟩ := ha.get h
    obtain ⟨f, rfl, hf⟩ := agrees_empty hag
    have hcl : closeFile f ok w = .ok (false, f) w := by
      unfold closeFile
      simp only [hf]
      rfl
    refine ⟨{ w with vars := w.vars.set x (some f) }, by
      simp only [Op.run]
      rw [Cpp.bind_ok (var_run hx), Cpp.bind_ok hcl, setVar_run], by
        have := ha.set x (a := .empty) (o := some f) hf
        rw [set_same h] at this
        exact this, ?_⟩
    exact keep ho hx hf _ hf
  · cases hs

theorem destroy_run {w : World} {st st' : List Status} (ha : AgreesAll w.vars st) (ho : Owned L w) (x : Nat)
    (hs : fileStep st (.destroy x) = some st') :
    ∃ w', (Op.destroy x).run w = .ok () w' ∧ AgreesAll w'.vars st' ∧ Owned L w' ∧ w'.opened = w.opened := by
  simp only [fileStep] at hs
  split at hs
  · rename_i h
    cases hs
    obtain ⟨o, hx, hag⟩ := ha.get h
    obtain ⟨f, n, rfl, hf⟩ := agrees_holding hag
    have hcl : dtor f w = .ok () { w with closed := n :: w.closed } := by
      unfold dtor
      simp only [hf]
      rw [Cpp.bind_ok (fclose_run (ho.open_ hx hf) true)]
      rfl
    refine ⟨{ w with closed := n :: w.closed, vars := w.vars.set x none }, by
      simp only [Op.run]
      rw [Cpp.bind_ok (var_run hx), Cpp.bind_ok hcl, setVar_run], ha.set x (a := .gone) (o := none) trivial, ?_, rfl⟩
    exact release ho hx hf _ rfl
  · rename_i h
    cases hs
    obtain ⟨o, hx, hag⟩ := ha.get h
    obtain ⟨f, rfl, hf⟩ := agrees_empty hag
    have hcl : dtor f w = .ok () w := by
      unfold dtor
      simp only [hf]
      rfl
    refine ⟨{ w with vars := w.vars.set x none }, by
      simp only [Op.run]
      rw [Cpp.bind_ok (var_run hx), Cpp.bind_ok hcl, setVar_run], ha.set x (a := .gone) (o := none) trivial, ?_, rfl⟩
    exact keep ho hx hf _ rfl
  · cases hs

theorem step_run {w : World} {st st' : List Status} (ha : AgreesAll w.vars st) (ho : Owned L w) (op : Op)
    (hs : fileStep st op = some st') :
    ∃ w', op.run w = .ok () w' ∧ AgreesAll w'.vars st' ∧ Owned L w' := by
  cases op with
  | open_ mode ok =>
    simp only [fileStep, Option.some.injEq] at hs
    subst hs
    exact open_run ha ho mode ok
  | move src => exact move_run ha ho src hs
  | assign dst src => exact assign_run ha ho dst src hs
  | close x ok => exact close_run ha ho x ok hs
  | write x d c => simp [fileStep] at hs
  | writeStr x d c => simp [fileStep] at hs
  | destroy x =>
    obtain ⟨w', h1, h2, h3, -⟩ := destroy_run ha ho x hs
    exact ⟨w', h1, h2, h3⟩

theorem run_run (ops : List Op) {w : World} {st st' : List Status} (ha : AgreesAll w.vars st) (ho : Owned L w)
    (hs : fileRun ops st = some st') :
    ∃ w', run ops w = .ok () w' ∧ AgreesAll w'.vars st' ∧ Owned L w' := by
  induction ops generalizing w st with
  | nil =>
    simp only [fileRun, Option.some.injEq] at hs
    subst hs
    exact ⟨w, rfl, ha, ho⟩
  | cons op ops ih =>
    simp only [fileRun] at hs
    cases h : fileStep st op with
    | none => rw [h] at hs; cases hs
    | some st1 =>
      rw [h] at hs
      obtain ⟨w1, h1, ha1, ho1⟩ := step_run ha ho op h
      obtain ⟨w2, h2, ha2, ho2⟩ := ih ha1 ho1 hs
      exact ⟨w2, by unfold run; rw [Cpp.bind_ok h1]; exact h2, ha2, ho2⟩

theorem start_agrees : AgreesAll ({} : World).vars [] := .nil
theorem start_owned : Owned [] {} := List.Perm.refl _

/-- destroying the variables from `x` on closes what they hold -/
theorem endFrom_run (n x : Nat) {w : World} {st : List Status} (ha : AgreesAll w.vars st) (ho : Owned L w)
    (hx : x + n = st.length) (hg : ∀ (i : Nat), i < x → st[i]? = some .gone) :
    ∃ w', endFrom x n w = .ok () w' ∧ Owned L w' ∧ held w'.vars = [] ∧ w'.opened = w.opened := by
  induction n generalizing x w st with
  | zero =>
    refine ⟨w, rfl, ho, ?_, rfl⟩
    have hall : ∀ a ∈ st, a = .gone := by
      intro a hm
      obtain ⟨i, hi, rfl⟩ := List.mem_iff_getElem.mp hm
      have := hg i (by omega)
      rw [List.getElem?_eq_getElem hi] at this
      exact Option.some.inj this
    clear hg ho hx
    generalize hv : w.vars = vars at ha
    clear hv
    induction ha with
    | nil => rfl
    | @cons o a vars st h _ ih =>
      have : a = .gone := hall a (by simp)
      subst this
      cases o with
      | none =>
        have := ih (fun a ha => hall a (by simp [ha]))
        unfold held at this ⊢
        simpa using this
      | some f => exact h.elim
  | succ n ih =>
    have hlt : x < st.length := by omega
    have hst : st[x]? = some st[x] := List.getElem?_eq_getElem hlt
    obtain ⟨o, hxo, hag⟩ := ha.get hst
    have cont : ∀ w1 : World, (∀ i : Nat, i < x + 1 → (st.set x .gone)[i]? = some .gone) := by
      intro _ i hi
      rw [List.getElem?_set]
      split
      · simp
      · exact hg i (by omega)
    cases ha' : st[x] with
    | gone =>
      rw [ha'] at hag hst
      cases o with
      | some f => exact hag.elim
      | none =>
        obtain ⟨w', h1, h2, h3, h4⟩ := ih (x + 1) ha ho (by omega) (by
          intro i hi
          rcases Nat.lt_or_ge i x with h | h
          · exact hg i h
          · have : i = x := by omega
            subst this; exact hst)
        refine ⟨w', ?_, h2, h3, h4⟩
        unfold endFrom
        rw [Cpp.bind_ok (Cpp.get_run _), hxo]
        exact h1
    | holding =>
      rw [ha'] at hag hst
      obtain ⟨f, k, rfl, hf⟩ := agrees_holding hag
      obtain ⟨w1, h1, ha1, ho1, he1⟩ := destroy_run ha ho x (st' := st.set x .gone) (by simp [fileStep, hst])
      obtain ⟨w', h2, h3, h4, h5⟩ := ih (x + 1) ha1 ho1 (by simp; omega) (cont w1)
      refine ⟨w', ?_, h3, h4, h5.trans he1⟩
      unfold endFrom
      rw [Cpp.bind_ok (Cpp.get_run _), hxo]
      simp only []
      rw [Cpp.bind_ok h1]
      exact h2
    | empty =>
      rw [ha'] at hag hst
      obtain ⟨f, rfl, hf⟩ := agrees_empty hag
      obtain ⟨w1, h1, ha1, ho1, he1⟩ := destroy_run ha ho x (st' := st.set x .gone) (by simp [fileStep, hst])
      obtain ⟨w', h2, h3, h4, h5⟩ := ih (x + 1) ha1 ho1 (by simp; omega) (cont w1)
      refine ⟨w', ?_, h3, h4, h5.trans he1⟩
      unfold endFrom
      rw [Cpp.bind_ok (Cpp.get_run _), hxo]
      simp only []
      rw [Cpp.bind_ok h1]
      exact h2

theorem finish_run {w : World} {st : List Status} (ha : AgreesAll w.vars st) (ho : Owned L w) :
    ∃ w', finish w = .ok () w' ∧ (w'.closed ++ L).Perm (List.range w'.opened) ∧ w'.opened = w.opened := by
  obtain ⟨w', h1, h2, h3, h4⟩ := endFrom_run w.vars.length 0 ha ho (by rw [ha.length]; omega) (by simp)
  refine ⟨w', h1, ?_, h4⟩
  unfold Owned at h2
  rw [h3] at h2
  simpa using h2

/-- move assignment to a variable that holds a stream loses that stream -/
theorem assign_lost {w : World} {st : List Status} (ha : AgreesAll w.vars st) (ho : Owned L w) {dst src : Nat}
    (hne : dst ≠ src) (hd : st[dst]? = some .holding) (hs : st[src]? = some .holding) :
    ∃ w' n, (Op.assign dst src).run w = .ok () w' ∧ AgreesAll w'.vars (st.set src .empty) ∧ Owned (n :: L) w' := by
  obtain ⟨o, hx, hag⟩ := ha.get hd
  obtain ⟨f, n, rfl, hf⟩ := agrees_holding hag
  obtain ⟨o, hy, hag⟩ := ha.get hs
  obtain ⟨g, m, rfl, hg⟩ := agrees_holding hag
  refine ⟨{ w with vars := (w.vars.set dst (some (moveAssign f g).1)).set src (some (moveAssign f g).2) }, n, by
    simp only [Op.run]
    rw [Cpp.bind_ok (var_run hx), Cpp.bind_ok (var_run hy), if_neg hne, Cpp.bind_ok (setVar_run _ _ _), setVar_run],
    ?_, ?_⟩
  · have := (ha.set dst (a := .holding) (o := some (moveAssign f g).1) (by simp [Agrees, moveAssign, hg])).set src
      (a := .empty) (o := some (moveAssign f g).2) (by simp [Agrees, moveAssign])
    rw [set_same hd] at this
    exact this
  · unfold Owned
    simp only [moveAssign]
    have h1 := held_set hx (some { f with file := g.file })
    have hy' : (w.vars.set dst (some { f with file := g.file }))[src]? = some (some g) := by
      rw [List.getElem?_set_ne hne]; exact hy
    have h2 := held_set hy' (some { g with file := none })
    simp only [Option.bind_some, hf, hg, Option.toList_none, Option.toList_some, List.nil_append] at h1 h2
    rw [hg]
    have h3 : (n :: held ((w.vars.set dst (some { f with file := some m })).set src (some { g with file := none }))).Perm
        (held w.vars) := by
      refine (List.perm_append_left_iff [m]).mp ?_
      exact (List.Perm.swap _ _ _).trans ((List.Perm.cons n h2).trans h1)
    refine List.Perm.trans ?_ ((List.Perm.append_right (w.closed ++ L) h3).trans ho)
    rw [← List.append_assoc]
    refine List.perm_middle.trans ?_
    rw [List.cons_append, List.append_assoc]

/-! ## the mode -/

/-- no `File` in the program has an initialised mode -/
def Modeless (w : World) : Prop := ∀ f, some f ∈ w.vars → f.mode = none

theorem modeless_set {vars : List (Option FileObj)} (h : ∀ f, some f ∈ vars → f.mode = none) (x : Nat)
    {o : Option FileObj} (ho : ∀ f, o = some f → f.mode = none) : ∀ f, some f ∈ vars.set x o → f.mode = none := by
  intro f hf
  rcases List.mem_or_eq_of_mem_set hf with h1 | h1
  · exact h f h1
  · exact ho f h1.symm

theorem modeless_snoc {vars : List (Option FileObj)} (h : ∀ f, some f ∈ vars → f.mode = none)
    {o : Option FileObj} (ho : ∀ f, o = some f → f.mode = none) : ∀ f, some f ∈ vars ++ [o] → f.mode = none := by
  intro f hf
  rcases List.mem_append.mp hf with h1 | h1
  · exact h f h1
  · exact ho f (List.mem_singleton.mp h1).symm

theorem bind_inv {σ β γ : Type} {m : Cpp σ β} {k : β → Cpp σ γ} {s s' : σ} {c : γ} (h : (m >>= k) s = .ok c s') :
    ∃ b s1, m s = .ok b s1 ∧ k b s1 = .ok c s' := by
  rw [Cpp.bind_run] at h
  cases hm : m s with
  | ok b s1 => rw [hm] at h; exact ⟨b, s1, rfl, h⟩
  | thrown s1 => rw [hm] at h; cases h
  | ub u => rw [hm] at h; cases h

theorem var_inv {w w' : World} {x : Nat} {f : FileObj} (h : var x w = .ok f w') : w' = w ∧ w.vars[x]? = some (some f) := by
  unfold var at h
  split at h
  · rename_i g hg
    cases h
    exact ⟨rfl, hg⟩
  · cases h

theorem fclose_vars {w w' : World} {n : Nat} {ok b : Bool} (h : fclose n ok w = .ok b w') : w'.vars = w.vars := by
  unfold fclose at h
  split at h
  · cases h
  · cases h; rfl

theorem put_vars {w w' : World} {n : Nat} {d : List Nat} {c : Nat} {b : Bool} (h : put n d c w = .ok b w') :
    w'.vars = w.vars := by
  unfold put at h
  split at h
  · cases h
  · cases h; rfl

theorem isBinary_inv {f : FileObj} {w w' : World} {b : Bool} (h : isBinary f w = .ok b w') : w' = w := by
  unfold isBinary at h
  cases hm : f.mode <;> simp only [hm] at h <;> cases h
  rfl

theorem dtor_vars {w w' : World} {f : FileObj} (h : dtor f w = .ok () w') : w'.vars = w.vars := by
  unfold dtor at h
  cases hm : f.file <;> simp only [hm] at h
  · cases h; rfl
  · obtain ⟨b, s1, h1, h2⟩ := bind_inv h
    cases h2
    exact fclose_vars h1

theorem step_modeless {w w' : World} (op : Op) (hm : Modeless w) (h : op.run w = .ok () w') : Modeless w' := by
  cases op with
  | open_ mode ok =>
    cases ok with
    | false =>
      cases h
      exact modeless_snoc hm (by simp)
    | true =>
      have h' : (Op.open_ mode true).run w = .ok () { w with opened := w.opened + 1, vars := w.vars ++ [some ⟨some w.opened, none⟩] } := rfl
      rw [h'] at h
      cases h
      exact modeless_snoc hm (by rintro f ⟨⟩; rfl)
  | move src =>
    simp only [Op.run] at h
    obtain ⟨f, s1, h1, k1⟩ := bind_inv h
    clear h
    obtain ⟨rfl, hx⟩ := var_inv h1
    rw [Cpp.bind_ok (setVar_run _ _ _), Cpp.modify_run] at k1
    cases k1
    have hf := hm f (List.mem_of_getElem? hx)
    exact modeless_snoc (modeless_set hm src (by rintro g ⟨⟩; exact hf)) (by rintro g ⟨⟩; rfl)
  | assign dst src =>
    simp only [Op.run] at h
    obtain ⟨f, s1, h1, k1⟩ := bind_inv h
    clear h
    obtain ⟨rfl, hx⟩ := var_inv h1
    obtain ⟨g, s2, h2, h⟩ := bind_inv k1
    clear k1
    obtain ⟨rfl, hy⟩ := var_inv h2
    have hf := hm f (List.mem_of_getElem? hx)
    have hg := hm g (List.mem_of_getElem? hy)
    split at h
    · cases h; exact hm
    · rw [Cpp.bind_ok (setVar_run _ _ _), setVar_run] at h
      cases h
      exact modeless_set (modeless_set hm dst (by rintro g ⟨⟩; exact hf)) src (by rintro k ⟨⟩; exact hg)
  | close x ok =>
    simp only [Op.run] at h
    obtain ⟨f, s1, h1, k1⟩ := bind_inv h
    clear h
    obtain ⟨rfl, hx⟩ := var_inv h1
    obtain ⟨r, s2, h2, h⟩ := bind_inv k1
    clear k1
    have hf := hm f (List.mem_of_getElem? hx)
    have hr : s2.vars = s1.vars ∧ r.2.mode = none := by
      unfold closeFile at h2
      cases hfile : f.file <;> simp only [hfile] at h2
      · cases h2; exact ⟨rfl, hf⟩
      · obtain ⟨b, s3, h3, h4⟩ := bind_inv h2
        have := fclose_vars h3
        split at h4 <;> cases h4 <;> exact ⟨this, hf⟩
    rw [setVar_run] at h
    cases h
    have : Modeless s2 := by unfold Modeless; rw [hr.1]; exact hm
    exact modeless_set this x (by rintro g ⟨⟩; exact hr.2)
  | write x d c =>
    simp only [Op.run] at h
    obtain ⟨f, s1, h1, k1⟩ := bind_inv h
    clear h
    obtain ⟨rfl, hx⟩ := var_inv h1
    obtain ⟨r, s2, h2, h⟩ := bind_inv k1
    clear k1
    cases h
    have hv : w'.vars = s1.vars := by
      unfold writeFile at h2
      cases hfile : f.file <;> simp only [hfile] at h2
      · cases h2; rfl
      · obtain ⟨b, s3, h3, h4⟩ := bind_inv h2
        have := isBinary_inv h3
        subst this
        split at h4 <;> exact put_vars h4
    unfold Modeless; rw [hv]; exact hm
  | writeStr x d c =>
    simp only [Op.run] at h
    obtain ⟨f, s1, h1, k1⟩ := bind_inv h
    clear h
    obtain ⟨rfl, hx⟩ := var_inv h1
    obtain ⟨r, s2, h2, h⟩ := bind_inv k1
    clear k1
    cases h
    have hv : w'.vars = s1.vars := by
      unfold writeString at h2
      cases hfile : f.file <;> simp only [hfile] at h2
      · cases h2; rfl
      · obtain ⟨b, s3, h3, h4⟩ := bind_inv h2
        have := isBinary_inv h3
        subst this
        split at h4 <;> exact put_vars h4
    unfold Modeless; rw [hv]; exact hm
  | destroy x =>
    simp only [Op.run] at h
    obtain ⟨f, s1, h1, k1⟩ := bind_inv h
    clear h
    obtain ⟨rfl, hx⟩ := var_inv h1
    obtain ⟨r, s2, h2, h⟩ := bind_inv k1
    clear k1
    rw [setVar_run] at h
    cases h
    have : Modeless s2 := by unfold Modeless; rw [dtor_vars h2]; exact hm
    exact modeless_set this x (by simp)

theorem run_modeless (ops : List Op) {w w' : World} (hm : Modeless w) (h : run ops w = .ok () w') : Modeless w' := by
  induction ops generalizing w with
  | nil => cases h; exact hm
  | cons op ops ih =>
    unfold run at h
    obtain ⟨u, w1, h1, h2⟩ := bind_inv h
    exact ih (step_modeless op hm h1) h2

theorem run_append (ops ops' : List Op) {w w' : World} (h : run ops w = .ok () w') : run (ops ++ ops') w = run ops' w' := by
  induction ops generalizing w with
  | nil => cases h; rfl
  | cons op ops ih =>
    unfold run at h
    obtain ⟨u, w1, h1, h2⟩ := bind_inv h
    rw [List.cons_append]
    show (do op.run; run (ops ++ ops')) w = _
    rw [Cpp.bind_ok h1]
    exact ih h2

end Io
end Efp
