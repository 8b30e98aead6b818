import Verif.Fmt.GrammarLemmas

/-!
# Consequences of the grammar
-/

namespace Efp
namespace Fmt

open Spec.Fmt

variable {l : List (Option Str × Arg)}

/-! ## Literal text -/

theorem formats_lit {P : Nat → Bool} {n : Int} {f o : Str} (h : Formats P l n f o) : ∀ t, NoBraces t →
    Formats P l n (t ++ f) (t ++ o)
  | [], _ => h
  | c :: t, ht => .char (ht c (by simp)).1 (ht c (by simp)).2 (formats_lit h t fun d hd => ht d (List.mem_cons_of_mem _ hd))

theorem formats_doubled (P : Nat → Bool) (n : Int) : ∀ s, Formats P l n (doubled s) s
  | [] => .done n
  | c :: s => by
    have ih := formats_doubled P n s
    unfold doubled at ih ⊢
    rw [List.flatMap_cons]
    by_cases h1 : c = '{'
    · rw [if_pos (Or.inl h1), h1]; exact .opening ih
    · by_cases h2 : c = '}'
      · rw [if_pos (Or.inr h2), h2]; exact .closing ih
      · rw [if_neg (by simp [h1, h2])]; exact .char h1 h2 ih

/-! ## A handler that only appends -/

/-- the function applied to the result -/
def rmap {α β : Type} (f : α → β) : Res α → Res β
  | .ok a => .ok (f a)
  | .err m => .err m
  | .ub => .ub

theorem rmap_bind {α β γ δ : Type} (G : α → β) (F : γ → δ) (x : Res α) (k : β → Res δ) (k' : α → Res γ)
    (h : ∀ a, k (G a) = rmap F (k' a)) : (rmap G x >>= k) = rmap F (x >>= k') := by
  cases x with
  | ok a => exact h a
  | err m => rfl
  | ub => rfl

theorem bind_rmap {α γ δ : Type} (F : γ → δ) (x : Res α) (k : α → Res δ) (k' : α → Res γ)
    (h : ∀ a, k a = rmap F (k' a)) : (x >>= k) = rmap F (x >>= k') := by
  cases x with
  | ok a => exact h a
  | err m => rfl
  | ub => rfl

/-- the handler commutes with a function on its state -/
structure Handler.Commutes {σ : Type} (h : Handler σ) (F : σ → σ) : Prop where
  onText : ∀ t s, h.onText t (F s) = rmap F (h.onText t s)
  onArgId : ∀ id s, h.onArgId id (F s) = rmap (fun p => (p.1, F p.2)) (h.onArgId id s)
  onReplacementField : ∀ i s, h.onReplacementField i (F s) = rmap F (h.onReplacementField i s)
  onFormatSpecs : ∀ i b s, h.onFormatSpecs i b (F s) = rmap (fun p => (p.1, F p.2)) (h.onFormatSpecs i b s)

theorem parseReplacementField_commutes {σ : Type} {h : Handler σ} {F : σ → σ} (hc : h.Commutes F) (after : Str) (s : σ) :
    parseReplacementField h after (F s) = rmap (fun p => (p.1, F p.2)) (parseReplacementField h after s) := by
  cases after with
  | nil => rfl
  | cons c r =>
    simp only [parseReplacementField]
    split
    · rw [hc.onArgId]
      refine rmap_bind _ _ _ _ _ fun a => ?_
      simp only
      rw [hc.onReplacementField]
      exact rmap_bind _ _ _ _ _ fun _ => rfl
    split
    · rw [hc.onText]
      exact rmap_bind _ _ _ _ _ fun _ => rfl
    · refine bind_rmap _ _ _ _ fun x => ?_
      rw [hc.onArgId]
      refine rmap_bind _ _ _ _ _ fun a => ?_
      simp only
      cases x.2 with
      | nil => rfl
      | cons d b =>
        simp only
        split
        · rw [hc.onReplacementField]
          exact rmap_bind _ _ _ _ _ fun _ => rfl
        split
        · rw [hc.onFormatSpecs]
          refine rmap_bind _ _ _ _ _ fun e => ?_
          simp only
          cases e.1 with
          | nil => rfl
          | cons y q => simp only; split <;> rfl
        · rfl

theorem shortLoop_commutes {σ : Type} {h : Handler σ} {F : σ → σ} (hc : h.Commutes F) : ∀ (fuel : Nat) (text p : Str) (s : σ),
    shortLoop h fuel text p (F s) = rmap F (shortLoop h fuel text p s)
  | fuel, text, [], s => by rw [shortLoop_nil, shortLoop_nil]; exact hc.onText _ _
  | 0, text, c :: p, s => rfl
  | fuel + 1, text, c :: p, s => by
    simp only [shortLoop]
    split
    · rw [hc.onText]
      refine rmap_bind _ _ _ _ _ fun s1 => ?_
      rw [parseReplacementField_commutes hc]
      refine rmap_bind _ _ _ _ _ fun x => ?_
      exact shortLoop_commutes hc fuel _ _ _
    split
    · cases p with
      | nil => rfl
      | cons d p =>
        simp only
        split
        · rfl
        · rw [hc.onText]
          exact rmap_bind _ _ _ _ _ fun s1 => shortLoop_commutes hc fuel _ _ _
    · exact shortLoop_commutes hc fuel _ _ _

/-- text already in the buffer stays in front -/
theorem handler_commutes (a : Args) (x : Str) : (formatHandler a).Commutes fun s => ⟨s.next, x ++ s.out⟩ where
  onText t s := by simp [formatHandler, rmap]
  onArgId id s := by
    cases id with
    | auto =>
      simp only [formatHandler]
      exact bind_rmap _ _ _ _ fun _ => rfl
    | index n =>
      simp only [formatHandler]
      exact bind_rmap _ _ _ _ fun _ => rfl
    | name t =>
      simp only [formatHandler]
      cases a.getId t <;> rfl
  onReplacementField i s := by
    simp only [formatHandler]
    refine bind_rmap _ _ _ _ fun v => bind_rmap _ _ _ _ fun t => ?_
    simp [rmap]
  onFormatSpecs i b s := by
    simp only [formatHandler, onFormatSpecs]
    refine bind_rmap _ _ _ _ fun v => ?_
    cases v with
    | custom g =>
      refine bind_rmap _ _ _ _ fun t => ?_
      simp [rmap]
    | _ =>
      refine bind_rmap _ _ _ _ fun x => bind_rmap _ _ _ _ fun w => bind_rmap _ _ _ _ fun p => ?_
      cases x.2.1 with
      | nil => rfl
      | cons c q =>
        simp only
        split
        · rfl
        · refine bind_rmap _ _ _ _ fun t => ?_
          simp [rmap]

theorem shortLoop_acc {a : Args} (t : Str) : ∀ (fuel : Nat) (text p : Str) (n : Int) (out : Str),
    shortLoop (formatHandler a) fuel (t ++ text) p ⟨n, out⟩ = shortLoop (formatHandler a) fuel text p ⟨n, out ++ t⟩
  | fuel, text, [], n, out => by rw [shortLoop_nil, shortLoop_nil]; simp [formatHandler]
  | 0, text, c :: p, n, out => rfl
  | fuel + 1, text, c :: p, n, out => by
    have e : ∀ u, (formatHandler a).onText (t ++ u) ⟨n, out⟩ = (formatHandler a).onText u ⟨n, out ++ t⟩ := by
      intro u; simp [formatHandler]
    simp only [shortLoop]
    rw [e]
    split
    · rfl
    split
    · cases p with
      | nil => rfl
      | cons d p =>
        simp only
        rw [List.append_assoc, e]
    · rw [List.append_assoc]
      exact shortLoop_acc t fuel _ p n out

theorem shortLoop_lit {σ : Type} (h : Handler σ) : ∀ (t : Str) (fuel : Nat) (text p : Str) (s : σ), NoBraces t →
    shortLoop h (t.length + fuel) text (t ++ p) s = shortLoop h fuel (text ++ t) p s
  | [], fuel, text, p, s, _ => by simp
  | c :: t, fuel, text, p, s, ht => by
    rw [List.cons_append, show (c :: t).length + fuel = (t.length + fuel) + 1 by simp only [List.length_cons]; omega]
    simp only [shortLoop]
    rw [if_neg (ht c (by simp)).1, if_neg (ht c (by simp)).2,
      shortLoop_lit h t fuel _ p s fun d hd => ht d (List.mem_cons_of_mem _ hd)]
    simp

/-- literal text in front changes nothing else -/
theorem format_prefix (hm : l.length < 2 ^ 31) (hok : ∀ p ∈ l, ArgOk p.2) (t fmt : Str) (ht : NoBraces t) :
    format (t ++ fmt) l = rmap (t ++ ·) (format fmt l) := by
  unfold format
  rw [vformatTo_eq hm hok, vformatTo_eq hm hok, List.length_append, shortLoop_lit _ _ _ _ _ _ ht, List.nil_append]
  have e := shortLoop_acc (a := makeArgs l) t fmt.length [] fmt 0 []
  rw [List.append_nil, List.nil_append] at e
  have e2 := shortLoop_commutes (handler_commutes (makeArgs l) t) fmt.length [] fmt ⟨0, []⟩
  simp only [List.append_nil] at e2
  rw [e, e2]
  exact rmap_bind _ _ _ _ _ fun _ => rfl

/-! ## One field after another -/

theorem field_eval {σ : Type} (h : Handler σ) (r : Ref) (hr : r.Valid) (f : Str) (s : σ) :
    parseReplacementField h (r.text ++ '}' :: f) s =
      (h.onArgId (aidOf r) s >>= fun x => h.onReplacementField x.1 x.2 >>= fun s => .ok (f, s)) := by
  obtain ⟨c, t, hct, hc1, hc2⟩ := ref_head r hr '}' f (Or.inl rfl)
  have hid := parseArgId_text r '}' f hr (Or.inl rfl)
  rw [hct] at hid ⊢
  simp only [parseReplacementField]
  by_cases hc : c = '}'
  · obtain ⟨rfl, _⟩ := hc2 hc
    rw [if_pos hc]
    simp only [Ref.text, List.nil_append, List.cons.injEq] at hct
    rw [hct.2]; rfl
  · rw [if_neg hc, if_neg hc1, hid, Res.bind_ok]
    rfl

theorem field_eval_colon {σ : Type} (h : Handler σ) (r : Ref) (hr : r.Valid) (b : Str) (s : σ) :
    parseReplacementField h (r.text ++ ':' :: b) s =
      (h.onArgId (aidOf r) s >>= fun x => h.onFormatSpecs x.1 b x.2 >>= fun y =>
        match y.1 with
        | [] => .err "unknown format specifier"
        | x :: e' => if x = '}' then .ok (e', y.2) else .err "unknown format specifier") := by
  obtain ⟨c, t, hct, hc1, hc2⟩ := ref_head r hr ':' b (Or.inr rfl)
  have hid := parseArgId_text r ':' b hr (Or.inr rfl)
  have hc : c ≠ '}' := fun h => absurd (hc2 h).2 (by decide)
  rw [hct] at hid ⊢
  simp only [parseReplacementField]
  rw [if_neg hc, if_neg hc1, hid, Res.bind_ok]
  rfl

/-- a computation that does not end with a result -/
def Fails {α : Type} (r : Res α) : Prop := ∀ a, r ≠ .ok a

theorem Fails.bind {α β : Type} {x : Res α} {k : α → Res β} (h : ∀ a, x = .ok a → Fails (k a)) : Fails (x >>= k) := by
  intro b hb
  obtain ⟨a, h1, h2⟩ := Res.bind_eq_ok.mp hb
  exact h a h1 b h2

theorem fails_format (hm : l.length < 2 ^ 31) (hok : ∀ p ∈ l, ArgOk p.2) {fmt : Str}
    (h : Fails (shortLoop (formatHandler (makeArgs l)) fmt.length [] fmt ⟨0, []⟩)) : ∃ m, format fmt l = .err m := by
  cases hf : format fmt l with
  | err m => exact ⟨m, rfl⟩
  | ub => exact absurd hf (format_ne_ub hm hok fmt)
  | ok t =>
    unfold format at hf
    rw [vformatTo_eq hm hok] at hf
    obtain ⟨s, h1, _⟩ := Res.bind_eq_ok.mp hf
    exact absurd h1 (h s)

theorem fails_field {σ : Type} {h : Handler σ} {fuel : Nat} {text after : Str} {s : σ}
    (hf : ∀ s1, h.onText text s = .ok s1 → ∀ x, parseReplacementField h after s1 = .ok x →
      Fails (shortLoop h fuel [] x.1 x.2)) : Fails (shortLoop h (fuel + 1) text ('{' :: after) s) := by
  simp only [shortLoop, if_true]
  exact Fails.bind fun s1 h1 => Fails.bind fun x hx => hf s1 h1 x hx

theorem fields_fail (hm : l.length < 2 ^ 31) : ∀ (k fuel n : Nat) (out : Str), (fields k).length ≤ fuel →
    l.length < n + k → n ≤ l.length → Fails (shortLoop (formatHandler (makeArgs l)) fuel [] (fields k) ⟨n, out⟩)
  | 0, fuel, n, out, _, h, h' => by omega
  | k + 1, 0, n, out, hf, _, _ => by simp [fields] at hf
  | k + 1, fuel + 1, n, out, hf, hl, hn => by
    apply fails_field
    intro s1 h1 x hx
    cases h1
    have e := field_eval (formatHandler (makeArgs l)) .auto trivial (fields k) ⟨(n : Int), out ++ []⟩
    rw [show Ref.text .auto ++ '}' :: fields k = '}' :: fields k from rfl] at e
    rw [e] at hx
    obtain ⟨⟨i, s2⟩, h2, h3⟩ := Res.bind_eq_ok.mp hx
    obtain ⟨s3, h4, h5⟩ := Res.bind_eq_ok.mp h3
    cases h5
    obtain ⟨j, h6, h7, h8⟩ := onArgId_sound hm .auto (n : Int) (out ++ []) h2
    rw [Ref.take, if_neg (by omega)] at h6
    simp only [Option.some.injEq, Prod.mk.injEq] at h6
    obtain ⟨h6, h9⟩ := h6
    obtain ⟨a, h10, h11⟩ := Res.bind_eq_ok.mp h4
    obtain ⟨t, h12, h13⟩ := Res.bind_eq_ok.mp h11
    cases h13
    rw [getArg_eq l hm, h8, ← h6, Int.toNat_natCast] at h10
    have hlt : n < l.length := by
      rcases Nat.lt_or_ge n l.length with h | h
      · exact h
      · rw [List.getElem?_eq_none h] at h10; cases h10
    have := fields_fail hm k fuel (n + 1) (s2.out ++ t) (by simp [fields] at hf; omega) (by omega) (by omega)
    rw [show ((n + 1 : Nat) : Int) = s2.next from by rw [← h9]; rfl] at this
    exact this

theorem formats_fields {P : Nat → Bool} : ∀ (k n : Nat) (ts : List Str),
    ((l.drop n).take k).mapM (fun a => showDefault a.2) = some ts → n + k ≤ l.length →
    Formats P l (n : Int) (fields k) ts.flatten
  | 0, n, ts, h, _ => by
    simp at h
    rw [h]
    exact .done _
  | k + 1, n, ts, h, hk => by
    have hn : n < l.length := by omega
    rw [List.drop_eq_getElem_cons hn, List.take_succ_cons, List.mapM_cons] at h
    simp only [Option.bind_eq_bind, Option.bind_eq_some_iff] at h
    obtain ⟨t, h1, ts', h2, h3⟩ := h
    cases h3
    have ih := formats_fields (P := P) k (n + 1) ts' h2 (by omega)
    rw [List.flatten_cons]
    refine Formats.plain (.auto) (i := n) trivial ?_ (List.getElem?_eq_getElem hn) h1 ih
    rw [Ref.take, if_neg (by omega)]; rfl

/-! ## One argument with options -/

theorem format_opts (hok : ∀ p ∈ l, ArgOk p.2) (hm : l.length < 2 ^ 31) {a : Option Str × Arg} (h0 : l[0]? = some a)
    (hc : a.2.ty ≠ .custom) (o : Opts) (hv : o.Valid a.2.ty) {w p n2 n3 : Int} {text : Str}
    (hw : o.width.value l 0 1 = some (w, n2)) (hp : precValue l o.prec n2 = some (p, n3))
    (ht : showSpecs isPrintable (o.meaning w p) a.2 = some text) :
    format ('{' :: ':' :: (o.text ++ ['}'])) l = .ok text := by
  rw [format_iff hm hok]
  have := Formats.opts (printable := isPrintable) (l := l) (n := 0) (f := []) (out := []) .auto o (i := 0) (n1 := 1)
    trivial rfl h0 hc hv hw hp ht (.done n3)
  rw [List.append_nil] at this
  exact this

/-! ## Literal text at the end -/

theorem formats_suffix {P : Nat → Bool} (hc : ∀ p ∈ l, p.2.ty ≠ .custom) {t : Str} (ht : NoBraces t) {n : Int} {f o : Str}
    (h : Formats P l n f o) : Formats P l n (f ++ t) (o ++ t) := by
  induction h with
  | done n => simpa using formats_lit (.done n) t ht
  | char h1 h2 _ ih => exact .char h1 h2 ih
  | opening _ ih => exact .opening ih
  | closing _ ih => exact .closing ih
  | plain r h1 h2 h3 h4 _ ih =>
    have := Formats.plain r h1 h2 h3 h4 ih
    rw [List.append_assoc, List.cons_append, List.append_assoc, List.cons_append]
    exact this
  | opts r o h1 h2 h3 h4 h5 h6 h7 h8 _ ih =>
    have := Formats.opts r o h1 h2 h3 h4 h5 h6 h7 h8 ih
    rw [List.append_assoc, List.cons_append, List.append_assoc, List.cons_append, List.append_assoc, List.cons_append]
    exact this
  | custom r h1 h2 h3 _ _ _ => exact absurd rfl (hc _ (List.mem_of_getElem? h3))

/-! ## Numbers that are too big -/

theorem width_too_big {ty : Ty} {c : Char} {ds : Str} (hd : ∀ d ∈ c :: ds, d.isDigit = true) (h0 : c ≠ '0')
    (hb : 2147483647 < decimal (c :: ds)) (f : Str) (n : Int) : Fails (parseFormatSpecs ty (c :: (ds ++ '}' :: f)) n) := by
  have hc : isDigit c = true := by rw [isDigit_eq]; exact hd c (by simp)
  have hds : ∀ d ∈ ds, isDigit d = true := fun d h => by rw [isDigit_eq]; exact hd d (List.mem_cons_of_mem _ h)
  have hp := parseNonnegativeInt_eq c ds ('}' :: f) (-1) hc hds (by intro c r h; cases h; rfl)
  rw [if_neg (by omega)] at hp
  have hr : (48 : Nat) ≤ c.toNat ∧ c.toNat ≤ 57 := by rw [isDigit_iff] at hc; exact hc
  have hne : ∀ x : Char, x.toNat < 48 ∨ 57 < x.toNat → c ≠ x := by rintro x hx rfl; omega
  have main : ∀ fuel b r, ds ++ '}' :: f = b :: r →
      Fails (specLoop ty (fuel + 1) c c (b :: r) .start {} n) := by
    intro fuel b r hbr
    rw [specLoop_succ, ← hbr]
    rw [if_neg (by simp only [not_or]; exact ⟨hne _ (by decide), hne _ (by decide), hne _ (by decide)⟩),
      if_neg (by simp only [not_or]; exact ⟨hne _ (by decide), hne _ (by decide), hne _ (by decide)⟩),
      if_neg (hne _ (by decide)), if_neg h0, if_pos (by simp [hc])]
    refine Fails.bind fun cur _ => ?_
    have : parseDynamicSpec (c :: (ds ++ '}' :: f)) ({} : Specs).width ({} : Specs).widthRef n = .err "number is too big" := by
      simp only [parseDynamicSpec, if_pos hc, hp, Res.bind_ok]
      rfl
    rw [this]
    exact fun a h => nomatch h
  cases hx : ds ++ '}' :: f with
  | nil => simp at hx
  | cons b r =>
    have hal : parseAlign b = .none := by
      cases ds with
      | nil => simp only [List.nil_append, List.cons.injEq] at hx; rw [← hx.1]; rfl
      | cons d ds' =>
        simp only [List.cons_append, List.cons.injEq] at hx
        have h2 := hds d (by simp)
        rw [isDigit_iff] at h2
        rw [← hx.1]
        have hne2 : ∀ x : Char, x.toNat < 48 ∨ 57 < x.toNat → d ≠ x := by rintro x hx rfl; omega
        unfold parseAlign
        rw [if_neg (hne2 _ (by decide)), if_neg (hne2 _ (by decide)), if_neg (hne2 _ (by decide))]
    have e : parseFormatSpecs ty (c :: (b :: r)) n = specLoop ty (r.length + 2) c c (b :: r) .start {} n := by
      simp only [parseFormatSpecs, hal, if_true]
    rw [e]
    exact main _ b r hx

/-! ## Digits -/

theorem readNat_append (b : Nat) (d e : Str) : readNat b (d ++ e) = e.foldl (fun v c => v * b + digitValue c) (readNat b d) := by
  unfold readNat; rw [List.foldl_append]

theorem digitValue_digit : ∀ v < 16, digitValue (Nat.digitChar v) = v ∧ digitValue (Nat.digitChar v).toUpper = v := by
  decide

theorem readNat_toDigits {b : Nat} (hb : 2 ≤ b) (hb' : b ≤ 16) (n : Nat) : readNat b (Nat.toDigits b n) = n := by
  induction n using Nat.strongRecOn with
  | ind n ih =>
    by_cases h : n < b
    · rw [Nat.toDigits_of_lt_base h]
      simp [readNat, (digitValue_digit n (by omega)).1]
    · rw [Nat.toDigits_of_base_le (by omega) (by omega), readNat_append, ih _ (Nat.div_lt_self (by omega) (by omega))]
      have := Nat.mod_lt n (show 0 < b by omega)
      simp only [List.foldl_cons, List.foldl_nil, (digitValue_digit (n % b) (by omega)).1]
      rw [Nat.mul_comm]; exact Nat.div_add_mod n b

theorem readNat_upper {b : Nat} (hb : 2 ≤ b) (hb' : b ≤ 16) (n : Nat) :
    readNat b ((Nat.toDigits b n).map Char.toUpper) = n := by
  induction n using Nat.strongRecOn with
  | ind n ih =>
    by_cases h : n < b
    · rw [Nat.toDigits_of_lt_base h]
      simp [readNat, (digitValue_digit n (by omega)).2]
    · rw [Nat.toDigits_of_base_le (by omega) (by omega), List.map_append, readNat_append,
        ih _ (Nat.div_lt_self (by omega) (by omega))]
      have := Nat.mod_lt n (show 0 < b by omega)
      simp only [List.map_cons, List.map_nil, List.foldl_cons, List.foldl_nil, (digitValue_digit (n % b) (by omega)).2]
      rw [Nat.mul_comm]; exact Nat.div_add_mod n b

theorem digit_not_minus : ∀ v < 16, Nat.digitChar v ≠ '-' ∧ (Nat.digitChar v).toUpper ≠ '-' := by decide

theorem toDigits_cons (b n : Nat) (hb : 2 ≤ b) (hb' : b ≤ 16) : ∃ v r, v < 16 ∧ Nat.toDigits b n = Nat.digitChar v :: r := by
  induction n using Nat.strongRecOn with
  | ind n ih =>
    by_cases h : n < b
    · exact ⟨n, [], by omega, Nat.toDigits_of_lt_base h⟩
    · obtain ⟨v, r, h1, h2⟩ := ih _ (Nat.div_lt_self (by omega) (show 1 < b by omega))
      rw [Nat.toDigits_of_base_le (by omega) (by omega), h2]
      exact ⟨v, _, h1, rfl⟩

theorem readInt_of {b : Nat} (hb : 2 ≤ b) (hb' : b ≤ 16) (v : Int) (upper : Bool) :
    readInt b ((if v < 0 then ['-'] else []) ++
      (if upper then (Nat.toDigits b v.natAbs).map Char.toUpper else Nat.toDigits b v.natAbs)) = v := by
  have hd : readNat b (if upper then (Nat.toDigits b v.natAbs).map Char.toUpper else Nat.toDigits b v.natAbs) = v.natAbs := by
    cases upper
    · exact readNat_toDigits hb hb' _
    · exact readNat_upper hb hb' _
  by_cases hv : v < 0
  · rw [if_pos hv]
    change -(readNat b _ : Int) = v
    rw [List.append_eq, List.nil_append, hd]; omega
  · rw [if_neg hv, List.nil_append]
    obtain ⟨d, r, h1, h2⟩ := toDigits_cons b v.natAbs hb hb'
    obtain ⟨n1, n2⟩ := digit_not_minus d h1
    have : readInt b (if upper then (Nat.toDigits b v.natAbs).map Char.toUpper else Nat.toDigits b v.natAbs)
        = (readNat b (if upper then (Nat.toDigits b v.natAbs).map Char.toUpper else Nat.toDigits b v.natAbs) : Int) := by
      rw [h2]
      cases upper
      · simp only [Bool.false_eq_true, if_false]
        unfold readInt
        split
        · rename_i heq; exact absurd (List.cons.inj heq).1 n1
        · rfl
      · simp only [if_true, List.map_cons]
        unfold readInt
        split
        · rename_i heq; exact absurd (List.cons.inj heq).1 n2
        · rfl
    rw [this, hd]; omega

theorem readNat_zeros (d : Str) : ∀ z, readNat 10 (List.replicate z '0' ++ d) = readNat 10 d
  | 0 => rfl
  | z + 1 => by
    rw [List.replicate_succ, List.cons_append]
    have := readNat_zeros d z
    unfold readNat at this ⊢
    rw [List.foldl_cons]
    exact this

theorem readInt_zeros (v : Int) (z : Nat) :
    readInt 10 ((if v < 0 then ['-'] else []) ++ (List.replicate z '0' ++ Nat.toDigits 10 v.natAbs)) = v := by
  have hr : readNat 10 (List.replicate z '0' ++ Nat.toDigits 10 v.natAbs) = v.natAbs := by
    rw [readNat_zeros, readNat_toDigits (by omega) (by omega)]
  by_cases hv : v < 0
  · rw [if_pos hv]
    change -(readNat 10 (List.replicate z '0' ++ Nat.toDigits 10 v.natAbs) : Int) = v
    rw [hr]; omega
  · rw [if_neg hv, List.nil_append]
    cases z with
    | zero =>
      have := readInt_of (b := 10) (by omega) (by omega) v false
      rw [if_neg hv] at this
      simpa using this
    | succ z =>
      change (readNat 10 (List.replicate (z + 1) '0' ++ Nat.toDigits 10 v.natAbs) : Int) = v
      rw [hr]; omega

/-! ## Both ways of scanning -/

theorem both_scans (hm : l.length < 2 ^ 31) (hok : ∀ p ∈ l, ArgOk p.2) (fmt : Str) :
    longLoop (formatHandler (makeArgs l)) fmt.length fmt ⟨0, []⟩ =
      shortLoop (formatHandler (makeArgs l)) fmt.length [] fmt ⟨0, []⟩ :=
  longLoop_eq (handler_good hm hok) _ _ fmt _ (Nat.le_refl _) (Nat.le_refl _)

/-! ## One and two arguments -/

theorem len1 (a : Option Str × Arg) : [a].length < 2 ^ 31 := by simp
theorem len2 (a b : Option Str × Arg) : [a, b].length < 2 ^ 31 := by simp
theorem ok1 {a : Arg} (h : ArgOk a) : ∀ p ∈ ([(none, a)] : List (Option Str × Arg)), ArgOk p.2 := by
  intro p hp; rw [List.mem_singleton.mp hp]; exact h
theorem str_ty (s : Str) : (Arg.string s).ty ≠ .custom := nofun

/-! ## Fields with a width -/

/-- a field with fill, alignment and a literal width -/
theorem padded {a : Arg} (ha : ArgOk a) (hne : a.ty ≠ .custom) (b : Char) (r : Str) (hb : b ≠ '{' ∧ b ≠ '}')
    (hr : r.length = fillTail b) (al : Align) (hal : al = .left ∨ al = .right ∨ al = .center) (w : Nat) (hw : 0 < w)
    (hw' : w ≤ 2147483647) {text : Str}
    (ht : showSpecs isPrintable { width := w, align := al, fill := b :: r } a = some text) :
    format ('{' :: ':' :: (b :: r ++ alignText al ++ Nat.toDigits 10 w ++ ['}'])) [(none, a)] = .ok text := by
  have hal' : al ≠ .none ∧ al ≠ .numeric := by rcases hal with rfl | rfl | rfl <;> decide
  have hv : ({ fill := b :: r, align := al, width := .lit (Nat.toDigits 10 w) } : Opts).Valid a.ty := by
    obtain ⟨c, q, h1, h2⟩ := toDigits_head w hw
    refine ⟨hal'.2, fun _ => ⟨hal'.1, b, r, rfl, hb.1, hb.2, hr⟩, by simp, by simp, by simp, ⟨⟨?_, ?_, ?_, ?_⟩, ?_⟩, by simp,
      by simp, trivial⟩
    · rw [h1]; simp
    · intro d hd; rw [← isDigit_eq]; exact toDigits_digits w d hd
    · exact toDigits_length_le w hw'
    · rw [decimal_toDigits]; exact hw'
    · intro d hd
      simp only [Num.lit.injEq] at hd
      rw [← hd, h1]; simpa using h2
  have := format_opts (l := [(none, a)]) (ok1 ha) (len1 _) (a := (none, a)) rfl hne _ hv
    (w := w) (p := -1) (n2 := 1) (n3 := 1) (text := text) (by simp [Num.value, decimal_toDigits]) rfl (by
      rw [← ht]
      simp [Opts.meaning, hal'.1])
  rw [← this]
  simp [Opts.text, signOptText, Num.text, precText, typeText]

theorem pad_sides (al : Align) (hal : al = .left ∨ al = .right ∨ al = .center) (d : Bool) (w k : Nat) (fill body : Str) :
    ∃ left right, Sides al left right ∧ left + right = w - k ∧
      pad d { width := w, align := al, fill := fill } k body = copies left fill ++ body ++ copies right fill := by
  rcases hal with rfl | rfl | rfl
  · exact ⟨0, w - k, .inl ⟨rfl, rfl⟩, by omega, by simp [pad]⟩
  · exact ⟨w - k, 0, .inr (.inl ⟨rfl, rfl⟩), by omega, by simp [pad]⟩
  · exact ⟨(w - k) / 2, w - k - (w - k) / 2, .inr (.inr ⟨rfl, by omega⟩), by omega, by simp [pad]⟩

/-- a width taken from the second argument -/
theorem dynamic_width (s : Str) (hs : Bytes s) (a : Arg) (ha : ArgOk a) :
    (∀ v, dynValue a = some v → format "{:{}}".toList [(none, .string s), (none, a)] =
      .ok (s ++ copies (v.toNat - columns (pieces s)) [' '])) ∧
    (dynValue a = none → ∃ m, format "{:{}}".toList [(none, .string s), (none, a)] = .err m) := by
  have hok : ∀ p ∈ ([(none, .string s), (none, a)] : List (Option Str × Arg)), ArgOk p.2 := by
    intro p hp
    simp only [List.mem_cons, List.not_mem_nil, or_false] at hp
    rcases hp with rfl | rfl
    · exact hs
    · exact ha
  have hv : ({ width := .arg .auto } : Opts).Valid .string :=
    ⟨by simp, by simp, by simp, by simp, by simp, ⟨trivial, by simp⟩, by simp, by simp, trivial⟩
  constructor
  · intro v hd
    have hnn : ((if 0 ≤ v then v.toNat else 0 : Nat) : Nat) = v.toNat := by split <;> omega
    exact format_opts (l := [(none, .string s), (none, a)]) hok (len2 _ _) (a := (none, .string s)) rfl (str_ty _) _ hv
      (w := v) (p := -1) (n2 := 2) (n3 := 2) (text := s ++ copies (v.toNat - columns (pieces s)) [' '])
      (by simp [Num.value, Ref.take, hd]) rfl (by
        have hj : join (pieces s) = s := pieces_flatten s hs
        simp [showSpecs, showStr, Opts.meaning, pad, hj]
        simp [copies])
  · intro hd
    refine fails_format (len2 _ _) hok (fails_field (after := ":{}}".toList) fun s1 h1 x hx => ?_)
    cases h1
    exfalso
    have e := field_eval_colon (formatHandler (makeArgs [(none, .string s), (none, a)])) .auto trivial "{}}".toList ⟨0, [] ++ []⟩
    rw [show Ref.text .auto ++ ':' :: "{}}".toList = ":{}}".toList from rfl] at e
    rw [e] at hx
    obtain ⟨b, h2, h3⟩ := Res.bind_eq_ok.mp hx
    obtain ⟨c, h4, _⟩ := Res.bind_eq_ok.mp h3
    obtain ⟨i, h5, _, h6⟩ := onArgId_sound (l := [(none, .string s), (none, a)]) (len2 _ _) .auto _ _ (i' := b.1) (s := b.2) h2
    simp only [Ref.take, Int.lt_irrefl, if_false, Option.some.injEq, Prod.mk.injEq] at h5
    rw [← h5.1] at h6
    have h7 := onFormatSpecs_eq (l := [(none, .string s), (none, a)]) (len2 _ _) b.1 h6 (str_ty _) "{}}".toList b.2.next b.2.out
    change onFormatSpecs (makeArgs [(none, .string s), (none, a)]) b.1 "{}}".toList ⟨b.2.next, b.2.out⟩ = _ at h4
    have hn : b.2.next = 1 := h5.2.symm
    rw [h7, hn] at h4
    have h8 := parseFormatSpecs_text (ty := .string) (by decide) hv [] 1
      (sp' := { widthRef := .index 1 }) (n' := 2) rfl
    change parseFormatSpecs .string "{}}".toList 1 = _ at h8
    change (parseFormatSpecs .string "{}}".toList 1 >>= _) = _ at h4
    rw [h8, Res.bind_ok] at h4
    obtain ⟨q, h9, _⟩ := Res.bind_eq_ok.mp h4
    have h10 : getArg (makeArgs [(none, .string s), (none, a)]) 1 = .ok a := by
      rw [getArg_eq [(none, .string s), (none, a)] (len2 _ _)]; rfl
    simp only [handleDynamicSpec] at h9
    rw [h10, Res.bind_ok] at h9
    have h11 := getDynamicSpec_eq "width" a
    rw [hd, h9] at h11
    obtain ⟨m, h12⟩ := h11
    cases h12

/-! ## Encoded texts -/

theorem encode_bytes (cs : List Char) : Bytes (encode cs) := by
  intro x hx
  obtain ⟨c, _, h⟩ := List.mem_flatMap.mp hx
  exact utf8_bytes c x h

theorem pieces_encode : ∀ cs : List Char, pieces (encode cs) = cs.map fun c => (some c, utf8 c)
  | [] => rfl
  | c :: cs => by
    have hB := encode_bytes (c :: cs)
    have e : encode (c :: cs) = utf8 c ++ encode cs := rfl
    have hne : encode (c :: cs) ≠ [] := by
      rw [e]; intro h
      have := utf8_length_pos c
      rw [(List.append_eq_nil_iff.mp h).1] at this
      exact Nat.lt_irrefl _ this
    have hf : firstChar (encode (c :: cs)) = some c := (firstChar_iff _ hB c).mpr ⟨_, e.symm⟩
    have hd : (encode (c :: cs)).drop (utf8 c).length = encode cs := by rw [e, List.drop_left]
    cases hs : encode (c :: cs) with
    | nil => exact absurd hs hne
    | cons b r =>
      rw [hs] at hB hf hd
      rw [pieces_cons b r]
      have hp : firstPiece b r = (some c, utf8 c) := by
        unfold firstPiece; rw [hf]
      rw [hp, hd, pieces_encode cs]
      rfl

theorem join_encode (cs : List Char) : join (cs.map fun c => (some c, utf8 c)) = encode cs := by
  simp [join, encode, List.flatMap, List.map_map, Function.comp_def]

end Fmt
end Efp
