import Verif.Fmt.ArgLemmas

/-!
# The parser moves forward, and its two loops over a format string do the same
-/

namespace Efp
namespace Fmt

/-! ## The parser moves forward -/

theorem pniLoop_le : ∀ (r : Str) (c : Char) (v n : Nat), (pniLoop c r v n).2.2.2.2.length ≤ r.length
  | [], c, v, n => Nat.le_refl _
  | d :: r, c, v, n => by
    unfold pniLoop
    split
    · exact Nat.le_trans (pniLoop_le r d _ _) (Nat.le_succ _)
    · exact Nat.le_refl _

theorem parseNonnegativeInt_le {b : Str} {e v : Int} {p : Str} (h : parseNonnegativeInt b e = .ok (v, p)) :
    p.length < b.length := by
  cases b with
  | nil => simp [parseNonnegativeInt] at h
  | cons c r =>
    have hl := pniLoop_le r c 0 0
    simp only [parseNonnegativeInt] at h
    have : (pniLoop c r 0 0).2.2.2.2 = p := by
      split at h
      · simp only [Res.ok.injEq, Prod.mk.injEq] at h; exact h.2
      · split at h
        · simp only [Res.ok.injEq, Prod.mk.injEq] at h; exact h.2
        · simp only [Res.ok.injEq, Prod.mk.injEq] at h; exact h.2
    rw [← this, List.length_cons]
    omega

theorem nameTail_le : ∀ r : Str, (nameTail r).2.length ≤ r.length
  | [] => Nat.le_refl _
  | c :: r => by
    unfold nameTail
    split
    · exact Nat.le_trans (nameTail_le r) (Nat.le_succ _)
    · exact Nat.le_refl _

theorem parseIndex_le {c : Char} {r : Str} {i : Int} {p : Str} (h : parseIndex c r = .ok (i, p)) :
    p.length < (c :: r).length := by
  unfold parseIndex at h
  split at h
  · exact parseNonnegativeInt_le h
  · simp only [Res.ok.injEq, Prod.mk.injEq] at h
    rw [← h.2]; exact Nat.lt_succ_self _

theorem doParseArgId_le {b : Str} {id : ArgId} {p : Str} (h : doParseArgId b = .ok (id, p)) : p.length < b.length := by
  cases b with
  | nil => simp [doParseArgId] at h
  | cons c r =>
    simp only [doParseArgId] at h
    split at h
    · obtain ⟨⟨i, q⟩, h1, h2⟩ := Res.bind_eq_ok.mp h
      have := parseIndex_le h1
      cases q with
      | nil => simp at h2
      | cons d q =>
        simp only at h2
        split at h2
        · simp at h2
        · simp only [Res.ok.injEq, Prod.mk.injEq] at h2
          rw [← h2.2]; exact this
    · split at h
      · simp at h
      · simp only [Res.ok.injEq, Prod.mk.injEq] at h
        rw [← h.2, List.length_cons]
        have := nameTail_le r
        omega

theorem parseArgId_le {b : Str} {id : ArgId} {p : Str} (h : parseArgId b = .ok (id, p)) : p.length ≤ b.length := by
  cases b with
  | nil => simp [parseArgId] at h
  | cons c r =>
    simp only [parseArgId] at h
    split at h
    · exact Nat.le_of_lt (doParseArgId_le h)
    · simp only [Res.ok.injEq, Prod.mk.injEq] at h
      rw [← h.2]; exact Nat.le_refl _

theorem parseDynamicSpec_le {b : Str} {v v' : Int} {ref ref' : ArgRef} {n n' : Int} {p : Str}
    (h : parseDynamicSpec b v ref n = .ok (v', ref', p, n')) :
    p.length ≤ b.length ∧ ((∃ c r, b = c :: r ∧ (isDigit c || c == '{') = true) → p.length < b.length) := by
  cases b with
  | nil => simp [parseDynamicSpec] at h
  | cons c r =>
    have key : p.length < (c :: r).length ∨ (p = c :: r ∧ (isDigit c || c == '{') = false) := by
      simp only [parseDynamicSpec] at h
      by_cases hd : isDigit c = true
      · rw [if_pos hd] at h
        obtain ⟨⟨i, q⟩, h1, h2⟩ := Res.bind_eq_ok.mp h
        have := parseNonnegativeInt_le h1
        simp only at h2
        split at h2
        · simp only [Res.ok.injEq, Prod.mk.injEq] at h2
          left; rw [← h2.2.2.1]; exact this
        · simp at h2
      · rw [if_neg hd] at h
        by_cases hb : c = '{'
        · rw [if_pos hb] at h
          cases r with
          | nil => simp at h
          | cons d r' =>
            simp only at h
            obtain ⟨⟨i, q⟩, h1, h2⟩ := Res.bind_eq_ok.mp h
            have := parseArgId_le h1
            obtain ⟨⟨rf, nn⟩, h3, h4⟩ := Res.bind_eq_ok.mp h2
            cases q with
            | nil => simp at h4
            | cons e q =>
              simp only at h4
              split at h4
              · simp only [Res.ok.injEq, Prod.mk.injEq] at h4
                left; rw [← h4.2.2.1]
                simp only [List.length_cons] at this ⊢
                omega
              · simp at h4
        · rw [if_neg hb] at h
          simp only [Res.ok.injEq, Prod.mk.injEq] at h
          right
          exact ⟨h.2.2.1.symm, by simp [hd, hb]⟩
    refine ⟨?_, ?_⟩
    · rcases key with h1 | ⟨h1, _⟩
      · exact Nat.le_of_lt h1
      · rw [h1]; exact Nat.le_refl _
    · rintro ⟨c', r', he, hc⟩
      obtain ⟨rfl, rfl⟩ := List.cons.inj he
      rcases key with h1 | ⟨_, h1⟩
      · exact h1
      · rw [hc] at h1; simp at h1

theorem parsePrecision_le {b : Str} {v v' : Int} {ref ref' : ArgRef} {n n' : Int} {p : Str}
    (h : parsePrecision b v ref n = .ok (v', ref', p, n')) : p.length < b.length := by
  match b, h with
  | [], h => simp [parsePrecision] at h
  | [_], h => simp [parsePrecision] at h
  | _ :: d :: r, h =>
    simp only [parsePrecision] at h
    split at h
    · simp at h
    · have := (parseDynamicSpec_le h).1
      simp only [List.length_cons] at this ⊢
      omega

theorem parseFill_le {b : Char} {r : Str} {cur cur' : St} {sp sp' : Specs} {p : Str}
    (h : parseFill b r cur sp = .ok (p, cur', sp')) : p.length < (b :: r).length := by
  unfold parseFill at h
  have hl : ((b :: r).drop (codePointLength b)).length ≤ (b :: r).length := by rw [List.length_drop]; omega
  cases hd : (b :: r).drop (codePointLength b) with
  | nil => rw [hd] at h; simp at h
  | cons f rest =>
    rw [hd] at h hl
    simp only at h
    split at h
    · simp at h
    · obtain ⟨c, h1, h2⟩ := Res.bind_eq_ok.mp h
      simp only [Res.ok.injEq, Prod.mk.injEq] at h2
      rw [← h2.1]
      simp only [List.length_cons] at hl ⊢
      omega

/-- with enough fuel the loop over the options ends, at a later position -/
theorem specLoop_le (ty : Ty) : ∀ (fuel : Nat) (c b : Char) (r : Str) (cur : St) (sp : Specs) (next : Int)
    {sp' : Specs} {p : Str} {next' : Int}, specLoop ty fuel c b r cur sp next = .ok (sp', p, next') →
    p.length ≤ (b :: r).length
  | 0, _, _, _, _, _, _, _, _, _, h => by simp [specLoop] at h
  | fuel + 1, c, b, r, cur, sp, next, sp', p, next', h => by
    have again : ∀ {pos : Str} {cur : St} {sp : Specs} {next : Int}, pos.length ≤ (b :: r).length →
        (match pos with
          | [] => Res.ok (sp, [], next)
          | b :: r => specLoop ty fuel b b r cur sp next) = .ok (sp', p, next') → p.length ≤ (b :: r).length := by
      intro pos cur sp next hl h
      cases pos with
      | nil =>
        simp only [Res.ok.injEq, Prod.mk.injEq] at h
        rw [← h.2.1]; exact Nat.zero_le _
      | cons b' r' => exact Nat.le_trans (specLoop_le ty fuel _ _ _ _ _ _ h) hl
    have stop : ∀ {sp'' : Specs} {n'' : Int}, (Res.ok (sp'', b :: r, n'')) = .ok (sp', p, next') →
        p.length ≤ (b :: r).length := by
      intro sp'' n'' h
      simp only [Res.ok.injEq, Prod.mk.injEq] at h
      rw [← h.2.1]; exact Nat.le_refl _
    have hr : r.length ≤ (b :: r).length := Nat.le_succ _
    unfold specLoop at h
    simp only at h
    split at h
    · obtain ⟨_, _, h⟩ := Res.bind_eq_ok.mp h
      exact again hr h
    split at h
    · split at h
      · exact stop h
      · obtain ⟨_, _, h⟩ := Res.bind_eq_ok.mp h
        exact again hr h
    split at h
    · split at h
      · exact stop h
      · obtain ⟨_, _, h⟩ := Res.bind_eq_ok.mp h
        exact again hr h
    split at h
    · obtain ⟨_, _, h⟩ := Res.bind_eq_ok.mp h
      split at h
      · split at h
        · exact stop h
        · simp at h
      · split at h
        · exact again hr h
        · exact again hr h
    split at h
    · obtain ⟨_, _, h⟩ := Res.bind_eq_ok.mp h
      obtain ⟨⟨w, ref, pos, nx⟩, h1, h⟩ := Res.bind_eq_ok.mp h
      exact again (parseDynamicSpec_le h1).1 h
    split at h
    · split at h
      · exact stop h
      · obtain ⟨_, _, h⟩ := Res.bind_eq_ok.mp h
        obtain ⟨⟨w, ref, pos, nx⟩, h1, h⟩ := Res.bind_eq_ok.mp h
        exact again (Nat.le_of_lt (parsePrecision_le h1)) h
    split at h
    · split at h
      · exact stop h
      · obtain ⟨_, _, h⟩ := Res.bind_eq_ok.mp h
        exact again hr h
    cases hp : presOf c with
    | some x =>
      obtain ⟨pr, set⟩ := x
      rw [hp] at h
      simp only at h
      split at h
      · split at h
        · exact stop h
        · simp at h
      · simp only [Res.ok.injEq, Prod.mk.injEq] at h
        rw [← h.2.1]; exact hr
    | none =>
      rw [hp] at h
      simp only at h
      split at h
      · exact stop h
      · obtain ⟨⟨pos, cur', sp''⟩, h1, h⟩ := Res.bind_eq_ok.mp h
        exact again (Nat.le_of_lt (parseFill_le h1)) h

theorem parseFormatSpecs_le {ty : Ty} {b : Str} {next : Int} {sp : Specs} {p : Str} {next' : Int}
    (h : parseFormatSpecs ty b next = .ok (sp, p, next')) : p.length ≤ b.length := by
  match b, h with
  | [], h =>
    simp only [parseFormatSpecs, Res.ok.injEq, Prod.mk.injEq] at h
    rw [← h.2.1]; exact Nat.le_refl _
  | [b], h => exact specLoop_le _ _ _ _ _ _ _ _ h
  | b :: n :: r, h => exact specLoop_le _ _ _ _ _ _ _ _ h

/-! ## The two loops -/

variable {σ : Type}

/-- what the loops need of a handler: empty text changes nothing, and options end where they begin or later -/
structure Handler.Good (h : Handler σ) : Prop where
  nil : ∀ s, h.onText [] s = .ok s
  forward : ∀ {id b s e s'}, h.onFormatSpecs id b s = .ok (e, s') → e.length ≤ b.length

theorem parseReplacementField_le {h : Handler σ} (g : h.Good) {after : Str} {s : σ} {p : Str} {s' : σ}
    (hr : parseReplacementField h after s = .ok (p, s')) : p.length < after.length := by
  cases after with
  | nil => simp [parseReplacementField] at hr
  | cons c r =>
    simp only [parseReplacementField] at hr
    split at hr
    · obtain ⟨⟨i, s1⟩, h1, h2⟩ := Res.bind_eq_ok.mp hr
      obtain ⟨s2, h3, h4⟩ := Res.bind_eq_ok.mp h2
      simp only [Res.ok.injEq, Prod.mk.injEq] at h4
      rw [← h4.1]; exact Nat.lt_succ_self _
    split at hr
    · obtain ⟨s1, h1, h2⟩ := Res.bind_eq_ok.mp hr
      simp only [Res.ok.injEq, Prod.mk.injEq] at h2
      rw [← h2.1]; exact Nat.lt_succ_self _
    · obtain ⟨⟨aid, b⟩, h1, h2⟩ := Res.bind_eq_ok.mp hr
      have hb := parseArgId_le h1
      obtain ⟨⟨id, s1⟩, h3, h4⟩ := Res.bind_eq_ok.mp h2
      cases b with
      | nil => simp at h4
      | cons d b' =>
        simp only [List.length_cons] at h4 hb ⊢
        split at h4
        · obtain ⟨s2, h5, h6⟩ := Res.bind_eq_ok.mp h4
          simp only [Res.ok.injEq, Prod.mk.injEq] at h6
          rw [← h6.1]; omega
        split at h4
        · obtain ⟨⟨e, s2⟩, h5, h6⟩ := Res.bind_eq_ok.mp h4
          have he := g.forward h5
          cases e with
          | nil => simp at h6
          | cons x e' =>
            simp only at h6
            split at h6
            · simp only [Res.ok.injEq, Prod.mk.injEq] at h6
              rw [← h6.1]
              simp only [List.length_cons] at he
              omega
            · simp at h6
        · simp at h4

theorem Res.bind_congr {α β : Type} (x : Res α) (f k : α → Res β) (h : ∀ a, x = .ok a → f a = k a) :
    (x >>= f) = (x >>= k) := by
  cases x with
  | ok a => exact h a rfl
  | err m => rfl
  | ub => rfl

theorem Res.bind_assoc {α β γ : Type} (x : Res α) (f : α → Res β) (k : β → Res γ) :
    (x >>= f >>= k) = (x >>= fun a => f a >>= k) := by
  cases x <;> rfl

theorem shortLoop_nil (h : Handler σ) (fuel : Nat) (text : Str) (s : σ) : shortLoop h fuel text [] s = h.onText text s := by
  cases fuel <;> rfl

/-- more fuel changes nothing -/
theorem shortLoop_fuel {h : Handler σ} (g : h.Good) : ∀ (f1 : Nat) (f2 : Nat) (text p : Str) (s : σ), p.length ≤ f1 →
    p.length ≤ f2 → shortLoop h f1 text p s = shortLoop h f2 text p s
  | f1, f2, text, [], s, _, _ => by rw [shortLoop_nil, shortLoop_nil]
  | 0, _, _, _ :: _, _, h1, _ => by simp at h1
  | _ + 1, 0, _, _ :: _, _, _, h2 => by simp at h2
  | f1 + 1, f2 + 1, text, c :: p, s, h1, h2 => by
    have e1 : p.length ≤ f1 := by simpa using h1
    have e2 : p.length ≤ f2 := by simpa using h2
    unfold shortLoop
    split
    · apply Res.bind_congr
      intro s1 _
      apply Res.bind_congr
      rintro ⟨p', s2⟩ hp
      have := parseReplacementField_le g hp
      exact shortLoop_fuel g f1 f2 [] p' s2 (by omega) (by omega)
    split
    · cases p with
      | nil => rfl
      | cons d p' =>
        simp only [List.length_cons] at e1 e2
        simp only
        split
        · rfl
        · apply Res.bind_congr
          intro s1 _
          exact shortLoop_fuel g f1 f2 [] p' s1 (by omega) (by omega)
    · exact shortLoop_fuel g f1 f2 _ p s e1 e2

theorem find_none (v : Char) : ∀ (s : Str), v ∉ s → find v s = none
  | [], _ => rfl
  | c :: r, h => by
    unfold find
    rw [if_neg (fun hc => h (by rw [hc]; simp)), find_none v r (fun hm => h (List.mem_cons_of_mem _ hm))]
    rfl

theorem find_some (v : Char) : ∀ (a b : Str), v ∉ a → find v (a ++ v :: b) = some (a, v :: b)
  | [], b, _ => by simp [find]
  | c :: r, b, h => by
    rw [List.cons_append]
    unfold find
    rw [if_neg (fun hc => h (by rw [hc]; simp)), find_some v r b (fun hm => h (List.mem_cons_of_mem _ hm))]
    rfl

theorem find_cases (v : Char) : ∀ s : Str, (find v s = none ∧ v ∉ s) ∨
    ∃ a b, s = a ++ v :: b ∧ v ∉ a ∧ find v s = some (a, v :: b)
  | [] => Or.inl ⟨rfl, by simp⟩
  | c :: r => by
    by_cases hc : c = v
    · right
      exact ⟨[], r, by rw [hc]; rfl, by simp, by simp [find, hc]⟩
    · rcases find_cases v r with ⟨h1, h2⟩ | ⟨a, b, h1, h2, h3⟩
      · left
        refine ⟨by simp [find, hc, h1], ?_⟩
        intro hm
        rcases List.mem_cons.mp hm with e | e
        · exact hc e.symm
        · exact h2 e
      · right
        refine ⟨c :: a, b, by rw [h1]; rfl, ?_, by simp [find, hc, h3]⟩
        intro hm
        rcases List.mem_cons.mp hm with e | e
        · exact hc e.symm
        · exact h2 e

/-- Text without an opening brace, read byte by byte or through `writer`. -/
theorem shortLoop_text {h : Handler σ} (g : h.Good) : ∀ (n : Nat) (before text rest : Str) (f k : Nat) (s : σ),
    before.length ≤ n → (rest = [] ∨ ∃ r, rest = '{' :: r) → '{' ∉ before → '}' ∉ text →
    before.length + rest.length ≤ f → before.length < k →
    shortLoop h f text (before ++ rest) s = (writerLoop h k (text ++ before) s >>= fun s' => shortLoop h f [] rest s')
  | n, before, text, rest, f, 0, s, _, _, _, _, _, hk => absurd hk (Nat.not_lt_zero _)
  | n, [], text, rest, f, k + 1, s, _, hrest, _, ht, _, _ => by
    unfold writerLoop
    rw [List.append_nil, find_none _ _ ht, List.nil_append]
    simp only
    rcases hrest with rfl | ⟨r, rfl⟩
    · rw [shortLoop_nil]
      have : (fun s' => shortLoop h f [] [] s') = fun s' => Res.ok s' := by
        funext s'; rw [shortLoop_nil, g.nil]
      rw [this]
      cases h.onText text s <;> rfl
    · cases f with
      | zero =>
        simp at *
      | succ f =>
        conv => lhs; unfold shortLoop
        rw [if_pos rfl]
        apply Res.bind_congr
        intro s1 _
        conv => rhs; unfold shortLoop
        rw [if_pos rfl, g.nil, Res.bind_ok]
  | 0, c :: b, _, _, _, _ + 1, _, hn, _, _, _, _, _ => by simp at hn
  | n + 1, c :: b, text, rest, 0, k + 1, s, hn, hrest, hb, ht, hf, hk => by simp at hf
  | n + 1, c :: b, text, rest, f + 1, k + 1, s, hn, hrest, hb, ht, hf, hk => by
    have hc : c ≠ '{' := fun e => hb (by rw [e]; simp)
    have hb' : '{' ∉ b := fun hm => hb (List.mem_cons_of_mem _ hm)
    simp only [List.length_cons] at hn hf hk
    rw [List.cons_append]
    by_cases hcl : c = '}'
    · conv => lhs; unfold shortLoop
      rw [if_neg hc, if_pos hcl]
      unfold writerLoop
      rw [hcl, find_some _ _ _ ht]
      simp only
      cases b with
      | nil =>
        rcases hrest with rfl | ⟨r, rfl⟩
        · rfl
        · rfl
      | cons d b' =>
        simp only [List.cons_append]
        by_cases hd : d = '}'
        · rw [if_neg (by simpa using hd), if_neg (by simpa using hd), Res.bind_assoc]
          apply Res.bind_congr
          intro s1 _
          simp only [List.length_cons] at hn hf hk
          rw [shortLoop_fuel g f (f + 1) _ _ _ (by simp; omega) (by simp; omega)]
          exact shortLoop_text g n b' [] rest (f + 1) k s1 (by omega) hrest
            (fun hm => hb' (List.mem_cons_of_mem _ hm)) (by simp) (by omega) (by omega)
        · rw [if_pos hd, if_pos hd]; rfl
    · conv => lhs; unfold shortLoop
      rw [if_neg hc, if_neg hcl, shortLoop_fuel g f (f + 1) _ _ _ (by simp; omega) (by simp; omega)]
      rw [shortLoop_text g n b (text ++ [c]) rest (f + 1) (k + 1) s (by omega) hrest hb' (by
        intro hm
        rcases List.mem_append.mp hm with e | e
        · exact ht e
        · exact hcl (List.mem_singleton.mp e).symm) (by omega) (by omega)]
      rw [List.append_assoc, List.singleton_append]

/-- The loop for long format strings does what the loop for short ones does. -/
theorem longLoop_eq {h : Handler σ} (g : h.Good) : ∀ (f1 f2 : Nat) (p : Str) (s : σ), p.length ≤ f1 → p.length ≤ f2 →
    longLoop h f1 p s = shortLoop h f2 [] p s
  | f1, f2, [], s, _, _ => by rw [shortLoop_nil, g.nil]; cases f1 <;> rfl
  | 0, _, _ :: _, _, h1, _ => by simp at h1
  | _ + 1, 0, _ :: _, _, _, h2 => by simp at h2
  | f1 + 1, f2 + 1, c :: r, s, h1, h2 => by
    have e1 : r.length ≤ f1 := by simpa using h1
    have e2 : r.length ≤ f2 := by simpa using h2
    have field : ∀ (q : Str) (s : σ), q.length ≤ f1 → q.length ≤ f2 →
        (parseReplacementField h q s >>= fun x => longLoop h f1 x.1 x.2)
          = shortLoop h (f2 + 1) [] ('{' :: q) s := by
      intro q s q1 q2
      conv => rhs; unfold shortLoop
      rw [if_pos rfl, g.nil, Res.bind_ok]
      apply Res.bind_congr
      rintro ⟨p', s'⟩ hp
      have := parseReplacementField_le g hp
      exact longLoop_eq g f1 f2 p' s' (by omega) (by omega)
    unfold longLoop
    by_cases hc : c = '{'
    · rw [if_pos hc, hc]
      show (Res.ok s >>= _) = _
      rw [Res.bind_ok]
      exact field r s e1 e2
    · rw [if_neg hc]
      rcases find_cases '{' r with ⟨hn, hm⟩ | ⟨a, b, ha, hm, hs⟩
      · rw [hn]
        have := shortLoop_text g (c :: r).length (c :: r) [] [] (f2 + 1) ((c :: r).length + 1) s (Nat.le_refl _)
          (Or.inl rfl) (by
            intro hm'
            rcases List.mem_cons.mp hm' with e | e
            · exact hc e.symm
            · exact hm e) (by simp) (by simpa using e2) (Nat.lt_succ_self _)
        rw [List.append_nil, List.nil_append] at this
        rw [this]
        simp only [writer, reduceCtorEq, if_false]
        have hid : (fun s' => shortLoop h (f2 + 1) [] [] s') = fun s' => Res.ok s' := by
          funext s'; rw [shortLoop_nil, g.nil]
        rw [hid]
        cases writerLoop h ((c :: r).length + 1) (c :: r) s <;> rfl
      · rw [hs]
        have hl := congrArg List.length ha
        rw [List.length_append, List.length_cons] at hl
        have := shortLoop_text g (c :: a).length (c :: a) [] ('{' :: b) (f2 + 1) ((c :: a).length + 1) s (Nat.le_refl _)
          (Or.inr ⟨b, rfl⟩) (by
            intro hm'
            rcases List.mem_cons.mp hm' with e | e
            · exact hc e.symm
            · exact hm e) (by simp) (by simp only [List.length_cons]; omega) (Nat.lt_succ_self _)
        rw [List.nil_append, List.cons_append, ← ha] at this
        rw [this]
        simp only [writer, reduceCtorEq, if_false, List.tail_cons]
        apply Res.bind_congr
        intro s1 _
        exact field b s1 (by omega) (by omega)

/-- Both loops, on any format string. -/
theorem parseFormatString_eq {h : Handler σ} (g : h.Good) (fmt : Str) (s : σ) :
    parseFormatString h fmt s = shortLoop h fmt.length [] fmt s := by
  unfold parseFormatString
  split
  · rfl
  · exact longLoop_eq g _ _ fmt s (Nat.le_refl _) (Nat.le_refl _)

end Fmt
end Efp
