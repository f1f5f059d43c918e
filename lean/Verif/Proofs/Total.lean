import Verif.Proofs.Basic

/-! Totality: no parser of the model runs out of budget or panics; what a parser
leaves is a suffix of what it was given; and the public parsers satisfy the
recursive equations of the source. -/
namespace ElmParser

variable {α β γ δ : Type}

/-- On inputs shorter than `k`, `p` returns (`Ok` or `Err`), and `Ok` leaves a suffix. -/
def Good (k : Nat) (p : Parser α) : Prop :=
  ∀ s, s.length < k → p s = .err ∨ ∃ v r, p s = .ok v r ∧ r <:+ s

/-- The same, and `Ok` consumes at least one character. -/
def Cons (k : Nat) (p : Parser α) : Prop :=
  ∀ s, s.length < k → p s = .err ∨ ∃ v r, p s = .ok v r ∧ r <:+ s ∧ r.length < s.length

theorem Cons.good {k : Nat} {p : Parser α} (h : Cons k p) : Good k p := fun s hs => by
  rcases h s hs with h | ⟨v, r, h, h', -⟩
  · exact .inl h
  · exact .inr ⟨v, r, h, h'⟩

theorem Good.mono {j k : Nat} {p : Parser α} (h : Good k p) (hj : j ≤ k) : Good j p :=
  fun s hs => h s (by omega)
theorem Cons.mono {j k : Nat} {p : Parser α} (h : Cons k p) (hj : j ≤ k) : Cons j p :=
  fun s hs => h s (by omega)

theorem good_pure (k : Nat) (v : α) : Good k (pure v : Parser α) :=
  fun s _ => .inr ⟨v, s, rfl, List.suffix_refl s⟩
theorem cons_fail (k : Nat) : Cons k (Parser.fail : Parser α) := fun _ _ => .inl rfl

theorem good_bind {k : Nat} {p : Parser α} {f : α → Parser β} (hp : Good k p)
    (hf : ∀ v, Good k (f v)) : Good k (p >>= f) := fun s hs => by
  rw [bind_apply]
  rcases hp s hs with h | ⟨v, r, h, h'⟩
  · simp [h]
  · rw [h, andThen_ok]
    rcases hf v r (by have := h'.length_le; omega) with g | ⟨w, r2, g, g'⟩
    · exact .inl g
    · exact .inr ⟨w, r2, g, g'.trans h'⟩

/-- After a consuming parser the budget for the rest is one smaller. -/
theorem cons_bind {k : Nat} {p : Parser α} {f : α → Parser β} (hp : Cons (k + 1) p)
    (hf : ∀ v, Good k (f v)) : Cons (k + 1) (p >>= f) := fun s hs => by
  rw [bind_apply]
  rcases hp s hs with h | ⟨v, r, h, h', h''⟩
  · simp [h]
  · rw [h, andThen_ok]
    rcases hf v r (by omega) with g | ⟨w, r2, g, g'⟩
    · exact .inl g
    · exact .inr ⟨w, r2, g, g'.trans h', by have := g'.length_le; omega⟩

theorem bind_cons {k : Nat} {p : Parser α} {f : α → Parser β} (hp : Good k p)
    (hf : ∀ v, Cons k (f v)) : Cons k (p >>= f) := fun s hs => by
  rw [bind_apply]
  rcases hp s hs with h | ⟨v, r, h, h'⟩
  · simp [h]
  · rw [h, andThen_ok]
    have := h'.length_le
    rcases hf v r (by omega) with g | ⟨w, r2, g, g', g''⟩
    · exact .inl g
    · exact .inr ⟨w, r2, g, g'.trans h', by omega⟩

theorem good_alt {k : Nat} {p q : Parser α} (hp : Good k p) (hq : Good k q) :
    Good k (p </> q) := fun s hs => by
  rw [alt_apply]
  rcases hp s hs with h | ⟨v, r, h, h'⟩
  · rw [h, orElse_err]; exact hq s hs
  · rw [h, orElse_ok]; exact .inr ⟨v, r, rfl, h'⟩

theorem cons_alt {k : Nat} {p q : Parser α} (hp : Cons k p) (hq : Cons k q) :
    Cons k (p </> q) := fun s hs => by
  rw [alt_apply]
  rcases hp s hs with h | ⟨v, r, h, h'⟩
  · rw [h, orElse_err]; exact hq s hs
  · rw [h, orElse_ok]; exact .inr ⟨v, r, rfl, h'⟩

theorem good_pmap {k : Nat} {p : Parser α} {f : α → β} (hp : Good k p) : Good k (pmap p f) :=
  good_bind hp fun _ => good_pure _ _
theorem cons_pmap {k : Nat} {p : Parser α} {f : α → β} (hp : Cons k p) : Cons k (pmap p f) := by
  cases k with
  | zero => intro s hs; omega
  | succ k => exact cons_bind hp fun _ => good_pure _ _

theorem good_mapRes {k : Nat} {p : Parser α} {f : α → Option β} (hp : Good k p) :
    Good k (mapRes p f) :=
  good_bind hp fun v => by
    cases f v with
    | none => exact (cons_fail k).good
    | some w => exact good_pure _ _
theorem cons_mapRes {k : Nat} {p : Parser α} {f : α → Option β} (hp : Cons k p) :
    Cons k (mapRes p f) := by
  cases k with
  | zero => intro s hs; omega
  | succ k =>
    refine cons_bind hp fun v => ?_
    cases f v with
    | none => exact (cons_fail k).good
    | some w => exact good_pure _ _

theorem good_opt {k : Nat} {p : Parser α} (hp : Good k p) : Good k (opt p) :=
  good_alt (good_pmap hp) (good_pure _ _)

theorem good_preceded {k : Nat} {p : Parser α} {q : Parser β} (hp : Good k p) (hq : Good k q) :
    Good k (preceded p q) := good_bind hp fun _ => hq
theorem cons_preceded {k : Nat} {p : Parser α} {q : Parser β} (hp : Cons (k + 1) p)
    (hq : Good k q) : Cons (k + 1) (preceded p q) := cons_bind hp fun _ => hq
theorem good_terminated {k : Nat} {p : Parser α} {q : Parser β} (hp : Good k p) (hq : Good k q) :
    Good k (terminated p q) := good_bind hp fun _ => good_bind hq fun _ => good_pure _ _
theorem terminated_cons {k : Nat} {p : Parser α} {q : Parser β} (hp : Good k p) (hq : Cons k q) :
    Cons k (terminated p q) := bind_cons hp fun _ => by
  cases k with
  | zero => intro s hs; omega
  | succ k => exact cons_bind hq fun _ => good_pure _ _
theorem cons_delimited {k : Nat} {p : Parser α} {q : Parser β} {t : Parser γ}
    (hp : Cons (k + 1) p) (hq : Good k q) (ht : Good k t) : Cons (k + 1) (delimited p q t) :=
  cons_bind hp fun _ => good_bind hq fun _ => good_bind ht fun _ => good_pure _ _
theorem delimited_cons {k : Nat} {p : Parser α} {q : Parser β} {t : Parser γ}
    (hp : Good k p) (hq : Cons k q) (ht : Good k t) : Cons k (delimited p q t) :=
  bind_cons hp fun _ => by
    cases k with
    | zero => intro s hs; omega
    | succ k => exact cons_bind hq fun _ => good_bind (ht.mono (by omega)) fun _ => good_pure _ _

theorem many0Loop_good {k : Nat} {p : Parser α} (hp : Good k p) (n : Nat) (s : Str)
    (hn : s.length < n) (hs : s.length < k) :
    ∃ v r, many0Loop p n s = .ok v r ∧ r <:+ s := by
  induction n generalizing s with
  | zero => omega
  | succ n ih =>
    simp only [many0Loop]
    rcases hp s hs with h | ⟨v, r, h, h'⟩
    · exact ⟨[], s, by simp [h], List.suffix_refl s⟩
    · simp only [h]
      split
      · exact ⟨[], s, rfl, List.suffix_refl s⟩
      · next hne =>
        have h1 := h'.length_le
        have h2 : r.length ≠ s.length := fun e => hne (h'.eq_of_length e)
        obtain ⟨vs, r', e, e'⟩ := ih r (by omega) (by omega)
        exact ⟨v :: vs, r', by simp [e], e'.trans h'⟩

theorem good_many0 {k : Nat} {p : Parser α} (hp : Good k p) : Good k (many0 p) := fun s hs => by
  obtain ⟨v, r, h, h'⟩ := many0Loop_good hp (s.length + 1) s (by omega) hs
  exact .inr ⟨v, r, h, h'⟩

theorem cons_many1 {k : Nat} {p : Parser α} (hp : Cons k p) : Cons k (many1 p) := by
  cases k with
  | zero => intro s hs; omega
  | succ k =>
    exact cons_bind hp fun _ => good_bind (good_many0 (hp.good.mono (by omega)))
      fun _ => good_pure _ _

theorem sepLoop_good {k : Nat} {sep : Parser β} {p : Parser α} (hsep : Good k sep)
    (hp : Good k p) (n : Nat) (s : Str) (hn : s.length < n) (hs : s.length < k) :
    ∃ v r, sepLoop sep p n s = .ok v r ∧ r <:+ s := by
  induction n generalizing s with
  | zero => omega
  | succ n ih =>
    simp only [sepLoop]
    rcases hsep s hs with h | ⟨v, s2, h, h'⟩
    · exact ⟨[], s, by simp [h], List.suffix_refl s⟩
    · simp only [h]
      have hl := h'.length_le
      split
      · exact ⟨[], s, rfl, List.suffix_refl s⟩
      · rcases hp s2 (by omega) with g | ⟨w, s3, g, g'⟩
        · exact ⟨[], s, by simp [g], List.suffix_refl s⟩
        · simp only [g]
          have hl' := g'.length_le
          split
          · exact ⟨[], s, rfl, List.suffix_refl s⟩
          · obtain ⟨vs, r', e, e'⟩ := ih s3 (by omega) (by omega)
            exact ⟨w :: vs, r', by simp [e], e'.trans (g'.trans h')⟩

theorem cons_sepNonemptyList {k : Nat} {sep : Parser β} {p : Parser α} (hsep : Good k sep)
    (hp : Good k p) : Cons k (sepNonemptyList sep p) := fun s hs => by
  simp only [sepNonemptyList]
  rcases hp s hs with h | ⟨v, r, h, h'⟩
  · simp [h]
  · have hl := h'.length_le
    simp only [h, andThen_ok]
    split
    · simp
    · obtain ⟨vs, r', e, e'⟩ := sepLoop_good hsep hp (r.length + 1) r (by omega) (by omega)
      refine .inr ⟨v :: vs, r', by simp [e], e'.trans h', ?_⟩
      have := e'.length_le
      omega

theorem good_sepList {k : Nat} {sep : Parser β} {p : Parser α} (hsep : Good k sep)
    (hp : Good k p) : Good k (sepList sep p) := fun s hs => by
  simp only [sepList]
  rcases hp s hs with h | ⟨v, r, h, h'⟩
  · exact .inr ⟨[], s, by simp [h], List.suffix_refl s⟩
  · have hl := h'.length_le
    simp only [h]
    split
    · exact .inl rfl
    · obtain ⟨vs, r', e, e'⟩ := sepLoop_good hsep hp (r.length + 1) r (by omega) (by omega)
      exact .inr ⟨v :: vs, r', by simp [e], e'.trans h'⟩

/-- When the continuation rejects the empty list, `separated_list!` behaves as
`separated_nonempty_list!`. -/
theorem sepList_bind {sep : Parser β} {p : Parser α} {f : List α → Parser γ}
    (hf : f [] = Parser.fail) : (sepList sep p >>= f) = (sepNonemptyList sep p >>= f) := by
  funext s
  simp only [bind_apply, sepList, sepNonemptyList]
  cases h : p s with
  | ok v r => simp only [andThen_ok]
  | err => simp [hf, fail_apply]
  | panic => simp
  | div => simp

/-! ### Lexers -/

theorem suffix_of_append {a b c : Str} (h : a = b ++ c) : c <:+ a := ⟨b, h.symm⟩

theorem cons_char (k : Nat) (c : Char) : Cons k (char c) := fun s _ => by
  cases s with
  | nil => simp
  | cons d s =>
    by_cases h : d = c
    · subst h; exact .inr ⟨d, s, by simp, ⟨[d], rfl⟩, by simp⟩
    · exact .inl (char_cons_ne s h)

theorem cons_tag (k : Nat) (c : Char) (t : Str) : Cons k (tag (c :: t)) := fun s _ => by
  cases h : tag (c :: t) s with
  | ok v r =>
    obtain ⟨rfl, rfl⟩ := tag_eq_ok.1 h
    exact .inr ⟨_, r, rfl, ⟨_, rfl⟩, by simp; omega⟩
  | err => exact .inl rfl
  | panic => simp only [tag] at h; split at h <;> cases h
  | div => simp only [tag] at h; split at h <;> cases h

theorem good_takeWhile0 (k : Nat) (f : Char → Bool) : Good k (takeWhile0 f) := fun _ _ =>
  .inr ⟨_, _, rfl, List.dropWhile_suffix f⟩

theorem cons_takeWhile1 (k : Nat) (f : Char → Bool) : Cons k (takeWhile1 f) := fun s _ => by
  cases h : takeWhile1 f s with
  | ok v r =>
    obtain ⟨rfl, hv, -⟩ := takeWhile1_iff.1 h
    refine .inr ⟨v, r, rfl, ⟨v, rfl⟩, ?_⟩
    cases v with
    | nil => exact absurd rfl hv
    | cons c v => simp; omega
  | err => exact .inl rfl
  | panic => simp only [takeWhile1] at h; split at h <;> cases h
  | div => simp only [takeWhile1] at h; split at h <;> cases h

/-- `re_matches!` followed by `v[0]` never panics. -/
theorem reMatches_index (re : Regex) (f : Str → Parser β) (s : Str) :
    (reMatches re >>= fun v => index v 0 >>= f) s =
      match re s with
      | some (m, r) => f m r
      | none => .err := by
  simp only [bind_apply, reMatches]
  cases h : re s with
  | none => rfl
  | some x => rfl

theorem reMatches_index' (re : Regex) (s : Str) :
    (reMatches re >>= fun v => index v 0) s =
      match re s with
      | some (m, r) => .ok m r
      | none => .err := by
  simp only [bind_apply, reMatches]
  cases h : re s with
  | none => rfl
  | some x => rfl

theorem reHeadTail_lt {h t : Char → Bool} {s m r : Str} (e : reHeadTail h t s = some (m, r)) :
    r <:+ s ∧ r.length < s.length := by
  obtain ⟨rfl, ⟨c, cs, rfl, -, -⟩, -⟩ := reHeadTail_iff.1 e
  exact ⟨⟨_, rfl⟩, by simp; omega⟩

theorem cons_headTail {k : Nat} {h t : Char → Bool} {f : Str → Parser β}
    (hf : ∀ m k, Good k (f m)) : Cons k (reMatches (reHeadTail h t) >>= fun v => index v 0 >>= f) :=
  fun s _ => by
    rw [reMatches_index]
    cases e : reHeadTail h t s with
    | none => exact .inl rfl
    | some x =>
      obtain ⟨m, r⟩ := x
      obtain ⟨h1, h2⟩ := reHeadTail_lt e
      rcases hf m (r.length + 1) r (by omega) with g | ⟨w, r2, g, g'⟩
      · exact .inl g
      · exact .inr ⟨w, r2, g, g'.trans h1, by have := g'.length_le; omega⟩

theorem cons_loName (k : Nat) : Cons k loName :=
  cons_alt (cons_tag k _ _) (cons_headTail fun m k => by
    split
    · exact (cons_fail k).good
    · exact good_pure _ _)

theorem cons_upName (k : Nat) : Cons k upName := fun s _ => by
  rw [upName, reMatches_index']
  cases e : reHeadTail isUpper isIdent s with
  | none => exact .inl rfl
  | some x => exact .inr ⟨_, _, rfl, reHeadTail_lt e⟩

theorem cons_operator (k : Nat) : Cons k operator :=
  cons_headTail fun m k => by
    split
    · exact (cons_fail k).good
    · exact good_pure _ _

theorem good_functionName (k : Nat) : Cons k functionName := cons_pmap (cons_loName k)

theorem cons_spaces (k : Nat) : Cons k spaces := cons_takeWhile1 k _
theorem good_spaces0 (k : Nat) : Good k spaces0 := good_pmap (good_opt (cons_takeWhile1 k _).good)
theorem cons_spacesAndNewlines (k : Nat) : Cons k spacesAndNewlines := cons_takeWhile1 k _
theorem cons_digit (k : Nat) : Cons k digit := cons_takeWhile1 k _
theorem good_multispace0 (k : Nat) : Good k multispace0 := good_takeWhile0 k _
theorem cons_multispace (k : Nat) : Cons k multispace := cons_takeWhile1 k _
theorem cons_space1 (k : Nat) : Cons k space1 := cons_takeWhile1 k _
theorem cons_moduleName (k : Nat) : Cons k moduleName :=
  cons_sepNonemptyList (cons_char k _).good (cons_upName k).good

theorem cons_tagRe {k : Nat} (c : Char) (t : Str) (f : Char → Bool) {g : Str → Parser β}
    (hg : ∀ m k, Good k (g m)) :
    Cons k (preceded (tag (c :: t)) (reMatches (reStar f)) >>= fun v => index v 0 >>= g) :=
  fun s _ => by
    rw [bind_apply, preceded_apply]
    rcases cons_tag (s.length + 1) c t s (by omega) with h | ⟨v, r, h, h', h''⟩
    · simp [h]
    · rw [h, andThen_ok]
      simp only [reMatches, reStar, andThen_ok, bind_apply, index, List.getElem?_cons_zero]
      have hd := List.dropWhile_suffix (l := r) f
      rcases hg (r.takeWhile f) _ (r.dropWhile f) (Nat.lt_succ_self _) with e | ⟨w, r2, e, e'⟩
      · exact .inl e
      · refine .inr ⟨w, r2, e, e'.trans (hd.trans h'), ?_⟩
        have := e'.length_le
        have := hd.length_le
        omega

theorem bind_pure_parser (p : Parser α) : (p >>= pure) = p := by
  funext s
  rw [bind_apply]
  cases p s <;> rfl

theorem cons_singleLineComment (k : Nat) : Cons k singleLineComment := by
  have := cons_tagRe (k := k) '-' c!"-" (fun c => c != '\n') (g := pure) (fun m k => good_pure k m)
  simpa only [singleLineComment, reLine, bind_pure_parser] using this

theorem cons_newLineItem (k : Nat) : Cons k newLineItem := by
  cases k with
  | zero => intro s hs; omega
  | succ k =>
    exact cons_preceded (cons_char _ _)
      (good_alt (good_pmap (good_spaces0 k)) (good_pmap (cons_singleLineComment k).good))

theorem cons_gapItem (k ind : Nat) : Cons k (gapItem ind) :=
  cons_alt (cons_pmap (cons_spaces k)) (cons_alt (cons_pmap (cons_singleLineComment k))
    (cons_many1 (cons_newLineItem k)))

theorem cons_gap (k ind : Nat) (ir : IR) : Cons k (gap ind ir) :=
  cons_mapRes (cons_many1 (cons_gapItem k ind))

theorem good_optGap (k ind : Nat) (ir : IR) : Good k (optGap ind ir) :=
  good_pmap (good_opt (cons_gap k ind ir).good)

theorem good_oGap (k ind : Nat) (ir : IR) : Good k (opt (gap ind ir)) :=
  good_opt (cons_gap k ind ir).good

theorem cons_newLineAndSameIndent (k ind : Nat) : Cons k (newLineAndSameIndent ind) := by
  cases k with
  | zero => intro s hs; omega
  | succ k => exact cons_mapRes (cons_preceded (cons_char _ _) (good_pmap (good_spaces0 k)))

/-! ### Types -/

theorem cons_typeVariable (k : Nat) : Cons k typeVariable :=
  cons_headTail fun _ k => good_pure k _

theorem cons_upDots (k : Nat) : Cons k (sepNonemptyList (char '.') upName) := cons_moduleName k

theorem cons_typeConstant (k : Nat) : Cons k typeConstant := cons_pmap (cons_upDots k)

theorem cons_commaSep (k ind : Nat) : Cons k (commaSep ind) :=
  delimited_cons (good_oGap k ind _) (cons_char k _) (good_oGap k ind _)

/-- The recursive parsers are good below `k`. -/
structure GoodRec (k : Nat) (R : TyRec) : Prop where
  ty : ∀ ind, Good k (R.type_ ind)
  ann : ∀ ind, Good k (R.typeAnnotation ind)

theorem GoodRec.mono {j k : Nat} {self : TyRec} (h : GoodRec k self) (hj : j ≤ k) :
    GoodRec j self := ⟨fun i => (h.ty i).mono hj, fun i => (h.ann i).mono hj⟩

section
variable {k : Nat} {self : TyRec} (hself : GoodRec k self) (ind : Nat)
include hself

theorem cons_typeTuple : Cons (k + 1) (typeTuple self ind) :=
  cons_pmap (cons_delimited (cons_preceded (cons_char _ _) (good_oGap k ind _))
    (good_sepList (cons_commaSep k ind).good (hself.ty ind))
    (good_terminated (good_oGap k ind _) (cons_char _ _).good))

theorem cons_typeRecordPair : Cons (k + 1) (typeRecordPair self ind) :=
  cons_bind (cons_loName _) fun _ => good_bind (good_oGap k ind _) fun _ =>
    good_bind (cons_char _ _).good fun _ => good_bind (good_oGap k ind _) fun _ =>
    good_bind (hself.ann ind) fun _ => good_pure _ _

theorem good_typeRecordPairs : Good (k + 1) (typeRecordPairs self ind) :=
  good_sepList (cons_commaSep _ ind).good (cons_typeRecordPair hself ind).good

theorem cons_typeRecordConstructor : Cons (k + 1) (typeRecordConstructor self ind) :=
  cons_delimited (cons_char _ _)
    (good_bind (cons_gap k ind _).good fun _ => good_bind (cons_typeVariable k).good fun _ =>
      good_bind (cons_gap k ind _).good fun _ => good_bind (cons_char k _).good fun _ =>
      good_bind (cons_gap k ind _).good fun _ =>
      good_bind ((good_typeRecordPairs hself ind).mono (by omega)) fun _ =>
      good_bind (cons_gap k ind _).good fun _ => good_pure _ _)
    (cons_char _ _).good

theorem cons_typeRecord : Cons (k + 1) (typeRecord self ind) :=
  cons_delimited (cons_preceded (cons_char _ _) (good_oGap k ind _))
    (good_pmap ((good_typeRecordPairs hself ind).mono (by omega)))
    (good_terminated (good_oGap k ind _) (cons_char _ _).good)

theorem cons_typeParens : Cons (k + 1) (typeParens self ind) :=
  cons_delimited (cons_preceded (cons_char _ _) (good_oGap k ind _))
    (hself.ann ind)
    (good_terminated (good_oGap k ind _) (cons_char _ _).good)

theorem cons_typeParameter : Cons (k + 1) (typeParameter self ind) :=
  cons_alt (cons_typeVariable _) <| cons_alt (cons_typeConstant _) <|
    cons_alt (cons_typeRecordConstructor hself ind) <| cons_alt (cons_typeRecord hself ind) <|
    cons_alt (cons_typeTuple hself ind) (cons_typeParens hself ind)

theorem cons_typeArg : Cons (k + 1) (typeArg self ind) :=
  cons_bind (cons_gap _ ind _) fun i =>
    (cons_typeParameter hself i).good.mono (Nat.le_succ k)

theorem cons_typeConstructorF : Cons (k + 1) (typeConstructorF self ind) :=
  cons_bind (cons_upDots _) fun _ =>
    good_bind ((good_many0 (cons_typeArg hself ind).good).mono (by omega)) fun _ => good_pure _ _

theorem cons_typeF : Cons (k + 1) (typeF self ind) :=
  cons_alt (cons_typeConstructorF hself ind) <| cons_alt (cons_typeVariable _) <|
    cons_alt (cons_typeRecordConstructor hself ind) <| cons_alt (cons_typeRecord hself ind) <|
    cons_alt (cons_typeTuple hself ind) (cons_typeParens hself ind)

omit hself in
theorem cons_arrowSep (j : Nat) : Cons j arrowSep :=
  delimited_cons (cons_spacesAndNewlines j).good (cons_tag j _ _) (cons_spacesAndNewlines j).good

omit hself in
theorem good_index0 (j : Nat) (a : α) : Good j (index [a] 0) :=
  fun s _ => .inr ⟨a, s, rfl, List.suffix_refl s⟩

theorem cons_typeAnnotationF : Cons (k + 1) (typeAnnotationF self ind) :=
  cons_bind (cons_sepNonemptyList (cons_arrowSep _).good (cons_typeF hself ind).good)
    fun v => by
      match v with
      | [] => exact (cons_fail k).good
      | [a] => exact good_index0 k a
      | a :: b :: v =>
        simp only [List.isEmpty_cons, Bool.false_eq_true, if_false, List.length_cons]
        rw [if_neg (by simp)]
        cases buildArrows (a :: b :: v).reverse with
        | none => exact (cons_fail k).good
        | some w => exact good_pure _ _
end

theorem goodRec_tyN (n : Nat) : GoodRec n (tyN n) := by
  induction n with
  | zero => exact ⟨fun _ s hs => by omega, fun _ s hs => by omega⟩
  | succ n ih => exact ⟨fun i => (cons_typeF ih i).good, fun i => (cons_typeAnnotationF ih i).good⟩

theorem cons_tyN_type (n ind : Nat) : Cons n ((tyN n).type_ ind) := by
  cases n with
  | zero => intro s hs; omega
  | succ n => exact cons_typeF (goodRec_tyN n) ind

theorem cons_tyN_typeAnnotation (n ind : Nat) : Cons n ((tyN n).typeAnnotation ind) := by
  cases n with
  | zero => intro s hs; omega
  | succ n => exact cons_typeAnnotationF (goodRec_tyN n) ind

theorem type_apply (ind : Nat) (s : Str) :
    type_ ind s = (tyN (s.length + 1)).type_ ind s := rfl
theorem typeAnnotation_apply (ind : Nat) (s : Str) :
    typeAnnotation ind s = (tyN (s.length + 1)).typeAnnotation ind s := rfl
theorem expression_apply (ind : Nat) (s : Str) :
    expression ind s = exprN (s.length + 1) ind s := rfl

theorem cons_type_ (k ind : Nat) : Cons k (type_ ind) := fun s _ => by
  rw [type_apply]
  exact cons_tyN_type (s.length + 1) ind s (Nat.lt_succ_self _)
theorem cons_typeAnnotation (k ind : Nat) : Cons k (typeAnnotation ind) := fun s _ => by
  rw [typeAnnotation_apply]
  exact cons_tyN_typeAnnotation (s.length + 1) ind s (Nat.lt_succ_self _)
theorem goodRec_tyRec (k : Nat) : GoodRec k tyRec :=
  ⟨fun i => (cons_type_ k i).good, fun i => (cons_typeAnnotation k i).good⟩
theorem cons_typeConstructor (k ind : Nat) : Cons k (typeConstructor ind) :=
  (cons_typeConstructorF (goodRec_tyRec k) ind).mono (by omega)

/-! ### Expressions -/

theorem cons_variableP (k : Nat) : Cons k variableP :=
  cons_alt (cons_pmap (cons_loName k)) <| cons_alt (cons_pmap (cons_upDots k)) <| by
    cases k with
    | zero => intro s hs; omega
    | succ k =>
      exact cons_pmap (cons_delimited (cons_char _ _)
        (good_alt (cons_operator k).good (cons_takeWhile1 k _).good) (cons_char k _).good)

theorem cons_dotName (k : Nat) : Cons k dotName := by
  cases k with
  | zero => intro s hs; omega
  | succ k =>
    exact cons_bind (cons_char _ _) fun _ => (cons_loName k).good

theorem cons_access (k : Nat) : Cons k access := by
  cases k with
  | zero => intro s hs; omega
  | succ k =>
    exact cons_bind (cons_variableP _) fun _ => good_bind (cons_many1 (cons_dotName k)).good
      fun _ => good_pure _ _

theorem cons_accessFunction (k : Nat) : Cons k accessFunction := by
  cases k with
  | zero => intro s hs; omega
  | succ k =>
    exact cons_bind (cons_char _ _) fun _ => good_bind (cons_loName k).good fun _ => good_pure _ _

theorem stringBody_append (s : Str) : (stringBody s).1 ++ (stringBody s).2 = s := by
  fun_induction stringBody s <;> grind

theorem good_reIndex {k : Nat} {p : Parser α} {t : Parser γ} {re : Regex} (hp : Cons k p)
    (ht : ∀ k, Good k t) (hre : ∀ s m r, re s = some (m, r) → r <:+ s) :
    Cons k (delimited p (reMatches re) t >>= fun v => index v 0) := fun s hs => by
  rw [bind_apply, delimited_apply]
  rcases hp s hs with h | ⟨v, r, h, h', h''⟩
  · simp [h]
  · rw [h, andThen_ok, reMatches]
    cases e : re r with
    | none => simp
    | some x =>
      obtain ⟨m, r2⟩ := x
      have hr := hre _ _ _ e
      simp only [andThen_ok]
      rcases ht (r2.length + 1) r2 (by omega) with g | ⟨w, r3, g, g'⟩
      · simp [g]
      · refine .inr ⟨m, r3, by simp [g, index], g'.trans (hr.trans h'), ?_⟩
        have := g'.length_le
        have := hr.length_le
        omega

theorem cons_multiString (k : Nat) : Cons k multiString :=
  good_reIndex (cons_tag k _ _) (fun k => (cons_tag k _ _).good) (by
    intro s m r h
    simp only [reStar, Option.some.injEq, Prod.mk.injEq] at h
    rw [← h.2]
    exact List.dropWhile_suffix _)

theorem cons_string (k : Nat) : Cons k string :=
  cons_pmap <| cons_alt
    (cons_multiString k)
    (good_reIndex (cons_char k _) (fun k => (cons_char k _).good) (by
      intro s m r h
      simp only [Option.some.injEq] at h
      refine ⟨m, ?_⟩
      have := stringBody_append s
      rw [h] at this
      exact this))

theorem good_sign (k : Nat) : Good k sign :=
  good_pmap (good_opt (good_alt (cons_char k _).good (cons_char k _).good))

theorem cons_float (k : Nat) : Cons k float :=
  bind_cons (good_sign k) fun _ => by
    cases k with
    | zero => intro s hs; omega
    | succ k =>
      exact cons_bind (cons_digit _) fun _ => good_bind (cons_char k _).good fun _ =>
        good_bind (cons_digit k).good fun _ => good_pure _ _

theorem cons_integer (k : Nat) : Cons k integer :=
  bind_cons (good_sign k) fun _ => by
    cases k with
    | zero => intro s hs; omega
    | succ k => exact cons_bind (cons_digit _) fun _ => good_pure _ _

theorem good_take (k n : Nat) : Good k (take n) := fun s _ => by
  simp only [take]
  split
  · exact .inl rfl
  · exact .inr ⟨_, _, rfl, List.drop_suffix _ _⟩

theorem cons_anychar (k : Nat) : Cons k anychar := fun s _ => by
  cases s with
  | nil => exact .inl rfl
  | cons c s => exact .inr ⟨c, s, rfl, ⟨[c], rfl⟩, by simp⟩

theorem cons_characterContent (k : Nat) : Cons k characterContent := by
  refine cons_alt ?_ (cons_anychar k)
  cases k with
  | zero => intro s hs; omega
  | succ k => exact cons_mapRes (cons_preceded (cons_tag _ _ _) (good_pmap (good_take k _)))

theorem cons_character (k : Nat) : Cons k character := by
  cases k with
  | zero => intro s hs; omega
  | succ k =>
    exact cons_pmap (cons_delimited (cons_char _ _) (cons_characterContent k).good
      (cons_char k _).good)

theorem cons_simplifiedRecord (k : Nat) : Cons k simplifiedRecord := by
  cases k with
  | zero => intro s hs; omega
  | succ k =>
    exact cons_pmap (cons_delimited (cons_char _ _)
      (good_sepList (cons_char k _).good
        (good_bind (good_multispace0 k) fun _ => good_bind (cons_loName k).good fun _ =>
          good_bind (good_multispace0 k) fun _ => good_pure _ _))
      (cons_char k _).good)

section
variable {k : Nat} {self : ExprRec} (hself : ∀ ind, Good k (self ind)) (ind : Nat)
include hself

theorem cons_tuple : Cons (k + 1) (tuple self ind) :=
  cons_pmap (cons_delimited (cons_char _ _)
    (good_sepList (cons_char k _).good
      (good_bind (good_multispace0 k) fun _ => good_bind (hself ind) fun _ =>
        good_bind (good_multispace0 k) fun _ => good_pure _ _))
    (cons_char k _).good)

theorem cons_list : Cons (k + 1) (list self ind) :=
  cons_pmap (cons_delimited (cons_preceded (cons_char _ _) (good_oGap k ind _))
    (good_opt (good_sepList (cons_commaSep k ind).good (hself ind)))
    (good_terminated (good_oGap k ind _) (cons_char k _).good))

theorem cons_record : Cons (k + 1) (record self ind) :=
  cons_pmap (cons_delimited (cons_preceded (cons_char _ _) (good_oGap k ind _))
    (good_sepList (cons_commaSep k ind).good
      (good_bind (cons_loName k).good fun _ =>
        good_bind (delimited_cons (good_oGap k ind _) (cons_char k _) (good_oGap k ind _)).good
          fun _ => good_bind (hself ind) fun _ => good_pure _ _))
    (good_terminated (good_oGap k ind _) (cons_char k _).good))

theorem cons_recordUpdate : Cons (k + 1) (recordUpdate self ind) :=
  cons_delimited (cons_preceded (cons_char _ _) (good_optGap k ind _))
    (good_bind (cons_loName k).good fun _ => good_bind (good_optGap k ind _) fun _ =>
      good_bind (cons_char k _).good fun _ => good_bind (good_multispace0 k) fun _ =>
      good_bind (good_sepList
        (delimited_cons (good_optGap k ind _) (cons_char k _) (good_optGap k ind _)).good
        (good_bind (cons_loName k).good fun _ => good_bind (good_multispace0 k) fun _ =>
          good_bind (cons_char k _).good fun _ => good_bind (good_multispace0 k) fun _ =>
          good_bind (hself ind) fun _ => good_pure _ _)) fun _ => good_pure _ _)
    (good_terminated (cons_gap k ind _).good (cons_char k _).good)

theorem cons_parens : Cons (k + 1) (parens self ind) :=
  cons_delimited (cons_char _ _) (hself ind) (cons_char k _).good

theorem cons_termF : Cons (k + 1) (termF self ind) :=
  cons_alt (cons_access _) <| cons_alt (cons_variableP _) <| cons_alt (cons_accessFunction _) <|
  cons_alt (cons_string _) <| cons_alt (cons_float _) <| cons_alt (cons_integer _) <|
  cons_alt (cons_character _) <| cons_alt (cons_parens hself ind) <|
  cons_alt (cons_list hself ind) <| cons_alt (cons_tuple hself ind) <|
  cons_alt (cons_recordUpdate hself ind) <| cons_alt (cons_record hself ind) <|
  cons_simplifiedRecord _

theorem cons_lambda : Cons (k + 1) (lambda self ind) :=
  cons_bind (cons_char _ _) fun _ =>
    good_bind (cons_sepNonemptyList (cons_space1 k).good
      ((cons_termF hself ind).good.mono (by omega))).good fun _ =>
    good_bind (cons_gap k ind _).good fun _ => good_bind (cons_tag k _ _).good fun _ =>
    good_bind (cons_gap k ind _).good fun i => good_bind (hself i) fun _ => good_pure _ _

theorem cons_applicationOrVar : Cons (k + 1) (applicationOrVar self ind) := by
  unfold applicationOrVar
  rw [sepList_bind (by rfl)]
  refine cons_bind (cons_sepNonemptyList (cons_gap _ ind _).good (cons_termF hself ind).good)
    fun v => ?_
  match v with
  | [] => exact (cons_fail k).good
  | [a] => exact fun s _ => .inr ⟨a, s, rfl, List.suffix_refl s⟩
  | a :: b :: v =>
    simp only [List.isEmpty_cons, Bool.false_eq_true, if_false, List.length_cons]
    rw [if_neg (by simp)]
    exact fun s _ => .inr ⟨_, s, rfl, List.suffix_refl s⟩

omit hself in
theorem cons_functionNameOrOp (j : Nat) : Cons j functionNameOrOp := by
  refine cons_alt (cons_loName j) ?_
  cases j with
  | zero => intro s hs; omega
  | succ j => exact cons_delimited (cons_char _ _) (cons_operator j).good (cons_char j _).good

theorem cons_functionDefinitionF : Cons (k + 1) (functionDefinitionF self ind) :=
  cons_bind (cons_functionNameOrOp _) fun _ =>
    good_bind (good_many0 (good_preceded (cons_spaces k).good
      ((cons_termF hself ind).good.mono (by omega)))) fun _ =>
    good_bind (cons_spaces k).good fun _ => good_bind (cons_char k _).good fun _ =>
    good_bind (cons_gap k ind _).good fun i => good_bind (hself i) fun _ => good_pure _ _
end

theorem cons_functionSignature (k ind : Nat) : Cons k (functionSignature ind) := by
  cases k with
  | zero => intro s hs; omega
  | succ k =>
    exact cons_bind (cons_functionNameOrOp _) fun _ =>
      good_bind (cons_spaces k).good fun _ => good_bind (cons_char k _).good fun _ =>
      good_bind (cons_gap k ind _).good fun i => good_bind (cons_typeAnnotation k i).good
      fun _ => good_pure _ _

section
variable {k : Nat} {self : ExprRec} (hself : ∀ ind, Good k (self ind)) (ind : Nat)
include hself

theorem cons_functionF : Cons (k + 1) (functionF self ind) := by
  refine bind_cons (good_opt (good_terminated (cons_functionSignature _ ind).good
    (cons_newLineAndSameIndent _ ind).good)) fun _ => ?_
  exact cons_bind (cons_functionDefinitionF hself ind) fun _ => good_pure _ _

theorem cons_letBindingTarget : Cons (k + 1) (letBindingTarget self ind) :=
  cons_alt (cons_variableP _) <| cons_alt (cons_list hself ind) <|
    cons_alt (cons_tuple hself ind) (cons_simplifiedRecord _)

theorem cons_letBinding : Cons (k + 1) (letBinding self ind) :=
  cons_bind (cons_letBindingTarget hself ind) fun _ => good_bind (cons_gap k ind _).good fun _ =>
    good_bind (cons_char k _).good fun _ => good_bind (cons_gap k ind _).good fun i =>
    good_bind (hself i) fun _ => good_pure _ _

theorem cons_letEntry : Cons (k + 1) (letEntry self ind) :=
  cons_alt (cons_letBinding hself ind) (cons_pmap (cons_functionF hself ind))

theorem cons_letBindings : Cons (k + 1) (letBindings self ind) :=
  cons_sepNonemptyList (cons_gap _ ind _).good (cons_letEntry hself ind).good

theorem cons_letExpression : Cons (k + 1) (letExpression self ind) :=
  cons_bind (cons_tag _ _ _) fun _ => good_bind (cons_gap k ind _).good fun i =>
    good_bind ((cons_letBindings hself i).good.mono (by omega)) fun _ =>
    good_bind (cons_gap k ind _).good fun _ => good_bind (cons_tag k _ _).good fun _ =>
    good_bind (cons_gap k ind _).good fun _ => good_bind (hself ind) fun _ => good_pure _ _

theorem good_caseBranch : Good k (caseBranch self ind) :=
  good_bind (hself ind) fun _ => good_bind (cons_gap k ind _).good fun _ =>
    good_bind (cons_tag k _ _).good fun _ => good_bind (cons_gap k ind _).good fun i =>
    good_bind (hself i) fun _ => good_pure _ _

theorem cons_casesP : Cons k (casesP self ind) :=
  cons_sepNonemptyList (cons_gap _ ind _).good (good_caseBranch hself ind)

theorem cons_caseExpression : Cons (k + 1) (caseExpression self ind) :=
  cons_bind (cons_tag _ _ _) fun _ => good_bind (cons_gap k ind _).good fun _ =>
    good_bind (hself ind) fun _ => good_bind (cons_gap k ind _).good fun _ =>
    good_bind (cons_tag k _ _).good fun _ => good_bind (cons_gap k ind _).good fun i =>
    good_bind (cons_casesP hself i).good fun _ => good_pure _ _

theorem cons_ifExpression : Cons (k + 1) (ifExpression self ind) :=
  cons_bind (cons_tag _ _ _) fun _ => good_bind (cons_gap k ind _).good fun _ =>
    good_bind (hself ind) fun _ => good_bind (cons_gap k ind _).good fun _ =>
    good_bind (cons_tag k _ _).good fun _ => good_bind (cons_gap k ind _).good fun i =>
    good_bind (hself i) fun _ => good_bind (cons_gap k ind _).good fun _ =>
    good_bind (cons_tag k _ _).good fun _ => good_bind (cons_gap k ind _).good fun j =>
    good_bind (hself j) fun _ => good_pure _ _

omit hself in
theorem cons_operatorOrAs (j : Nat) : Cons j operatorOrAs :=
  cons_pmap (cons_alt (cons_tag j _ _) (cons_operator j))

theorem cons_binaryTail : Cons (k + 1) (binaryTail self ind) :=
  cons_bind (cons_gap _ ind _) fun _ => good_bind (cons_operatorOrAs k).good fun _ =>
    good_bind (cons_multispace k).good fun _ => good_bind (hself ind) fun _ => good_pure _ _

theorem cons_binary : Cons (k + 1) (binary self ind) :=
  cons_bind (cons_applicationOrVar hself ind) fun _ =>
    good_bind (good_opt ((cons_binaryTail hself ind).good.mono (by omega))) fun _ => good_pure _ _

theorem cons_expressionF : Cons (k + 1) (expressionF self ind) :=
  cons_alt (cons_binary hself ind) <| cons_alt (cons_letExpression hself ind) <|
    cons_alt (cons_caseExpression hself ind) <| cons_alt (cons_ifExpression hself ind)
    (cons_lambda hself ind)
end

theorem good_exprN (n : Nat) (ind : Nat) : Good n (exprN n ind) := by
  induction n generalizing ind with
  | zero => exact fun s hs => by omega
  | succ n ih => exact (cons_expressionF ih ind).good

theorem cons_exprN (n : Nat) (ind : Nat) : Cons n (exprN n ind) := by
  cases n with
  | zero => exact fun s hs => by omega
  | succ n => exact cons_expressionF (good_exprN n) ind

theorem cons_expression (k ind : Nat) : Cons k (expression ind) := fun s _ => by
  rw [expression_apply]
  exact cons_exprN (s.length + 1) ind s (Nat.lt_succ_self _)

theorem cons_term (k ind : Nat) : Cons k (term ind) :=
  (cons_termF (fun i => (cons_expression k i).good) ind).mono (by omega)
theorem cons_function (k ind : Nat) : Cons k (function ind) :=
  (cons_functionF (fun i => (cons_expression k i).good) ind).mono (by omega)

/-! ### Statements -/

theorem cons_lineCommentStatement (k : Nat) : Cons k lineCommentStatement :=
  cons_tagRe '-' c!"-" (fun c => c != '\n') fun _ k => good_pure k _

theorem findSubstring_eq_some {t s a b : Str} (h : findSubstring t s = some (a, b)) :
    s = a ++ t ++ b := by
  induction s generalizing a b with
  | nil =>
    simp only [findSubstring] at h
    split at h
    · next e =>
      rw [stripPrefix_eq_some] at e
      simp only [Option.some.injEq, Prod.mk.injEq] at h
      obtain ⟨rfl, rfl⟩ := h
      simpa using e
    · simp at h
  | cons c s ih =>
    simp only [findSubstring] at h
    split at h
    · next e =>
      rw [stripPrefix_eq_some] at e
      simp only [Option.some.injEq, Prod.mk.injEq] at h
      obtain ⟨rfl, rfl⟩ := h
      simpa using e
    · split at h
      · next e =>
        simp only [Option.some.injEq, Prod.mk.injEq] at h
        obtain ⟨rfl, rfl⟩ := h
        simp [ih e]
      · simp at h

theorem good_takeUntilAndConsume (k : Nat) (t : Str) : Good k (takeUntilAndConsume t) :=
  fun s _ => by
    simp only [takeUntilAndConsume]
    split
    · next e => exact .inr ⟨_, _, rfl, ⟨_, (findSubstring_eq_some e).symm⟩⟩
    · exact .inl rfl

theorem cons_comment (k : Nat) : Cons k comment := by
  refine cons_alt (cons_lineCommentStatement k) ?_
  cases k with
  | zero => intro s hs; omega
  | succ k => exact cons_pmap (cons_preceded (cons_tag _ _ _) (good_takeUntilAndConsume k _))

theorem cons_allExport (k : Nat) : Cons k allExport := cons_pmap (cons_tag k _ _)

theorem cons_functionExport (k : Nat) : Cons k functionExport := by
  refine cons_pmap (cons_alt (good_functionName k) ?_)
  cases k with
  | zero => intro s hs; omega
  | succ k => exact cons_delimited (cons_char _ _) (cons_operator k).good (cons_char k _).good

theorem good_constructorExports (k : Nat) : Good k constructorExports := by
  refine good_opt ?_
  cases k with
  | zero => intro s hs; omega
  | succ k =>
    exact (cons_delimited (cons_char _ _) (good_alt (cons_allExport k).good
      (cons_pmap (cons_sepNonemptyList (cons_tag k _ _).good (cons_pmap (cons_upName k)).good)).good)
      (cons_char k _).good).good

theorem cons_typeExport (k : Nat) : Cons k typeExport := by
  cases k with
  | zero => intro s hs; omega
  | succ k =>
    exact cons_bind (cons_upName _) fun _ => good_bind (good_constructorExports k) fun _ =>
      good_pure _ _

theorem cons_subsetExport (k : Nat) : Cons k subsetExport :=
  cons_pmap (cons_sepNonemptyList
    (delimited_cons (good_opt (cons_spacesAndNewlines k).good) (cons_char k _)
      (good_opt (cons_spacesAndNewlines k).good)).good
    (cons_alt (cons_functionExport k) (cons_typeExport k)).good)

theorem cons_exports (k : Nat) : Cons k exports := by
  cases k with
  | zero => intro s hs; omega
  | succ k =>
    exact cons_delimited (cons_preceded (cons_char _ _) (good_oGap k 0 _))
      (cons_alt (cons_allExport k) (cons_subsetExport k)).good
      (good_terminated (good_oGap k 0 _) (cons_char k _).good)

theorem cons_portModuleDeclaration (k : Nat) : Cons k portModuleDeclaration := by
  cases k with
  | zero => intro s hs; omega
  | succ k =>
    exact cons_bind (cons_tag _ _ _) fun _ => good_bind (cons_gap k 0 _).good fun _ =>
      good_bind (cons_tag k _ _).good fun _ => good_bind (cons_gap k 0 _).good fun _ =>
      good_bind (cons_moduleName k).good fun _ => good_bind (cons_gap k 0 _).good fun _ =>
      good_bind (cons_tag k _ _).good fun _ => good_bind (cons_gap k 0 _).good fun _ =>
      good_bind (cons_exports k).good fun _ => good_pure _ _

theorem cons_moduleDeclaration (k : Nat) : Cons k moduleDeclaration := by
  cases k with
  | zero => intro s hs; omega
  | succ k =>
    exact cons_bind (cons_tag _ _ _) fun _ => good_bind (cons_gap k 0 _).good fun _ =>
      good_bind (cons_moduleName k).good fun _ => good_bind (cons_gap k 0 _).good fun _ =>
      good_bind (cons_tag k _ _).good fun _ => good_bind (cons_gap k 0 _).good fun _ =>
      good_bind (cons_exports k).good fun _ => good_pure _ _

theorem good_effectField (k : Nat) : Good k effectField :=
  good_bind (cons_loName k).good fun _ => good_bind (good_opt (cons_spaces k).good) fun _ =>
    good_bind (cons_char k _).good fun _ => good_bind (good_opt (cons_spaces k).good) fun _ =>
    good_bind (cons_upName k).good fun _ => good_pure _ _

theorem cons_effectModuleDeclaration (k : Nat) : Cons k effectModuleDeclaration := by
  cases k with
  | zero => intro s hs; omega
  | succ k =>
    exact cons_bind (cons_tag _ _ _) fun _ => good_bind (cons_gap k 0 _).good fun _ =>
      good_bind (cons_tag k _ _).good fun _ => good_bind (cons_gap k 0 _).good fun _ =>
      good_bind (cons_moduleName k).good fun _ => good_bind (cons_gap k 0 _).good fun _ =>
      good_bind (cons_tag k _ _).good fun _ => good_bind (cons_gap k 0 _).good fun _ =>
      good_bind (good_bind (cons_char k _).good fun _ =>
        good_bind (good_sepList (cons_tag k _ _).good (good_effectField k)) fun _ =>
        good_bind (cons_char k _).good fun _ => good_pure _ _) fun _ =>
      good_bind (cons_gap k 0 _).good fun _ =>
      good_bind (cons_tag k _ _).good fun _ => good_bind (cons_gap k 0 _).good fun _ =>
      good_bind (cons_exports k).good fun _ => good_pure _ _

theorem good_spacedTag (k : Nat) (c : Char) (t : Str) :
    Good k (delimited spaces (tag (c :: t)) spaces) :=
  good_bind (cons_spaces k).good fun _ => good_bind (cons_tag k _ _).good fun _ =>
    good_bind (cons_spaces k).good fun _ => good_pure _ _

theorem cons_importStatement (k : Nat) : Cons k importStatement := by
  cases k with
  | zero => intro s hs; omega
  | succ k =>
    exact cons_bind (cons_tag _ _ _) fun _ => good_bind (cons_spaces k).good fun _ =>
      good_bind (cons_moduleName k).good fun _ =>
      good_bind (good_opt (good_preceded (good_spacedTag k _ _) (cons_upName k).good)) fun _ =>
      good_bind (good_opt (good_preceded (good_spacedTag k _ _) (cons_exports k).good)) fun _ =>
      good_pure _ _

theorem cons_typeAliasDeclaration (k : Nat) : Cons k typeAliasDeclaration := by
  cases k with
  | zero => intro s hs; omega
  | succ k =>
    exact cons_bind (cons_tag _ _ _) fun _ => good_bind (cons_spaces k).good fun _ =>
      good_bind (cons_tag k _ _).good fun _ => good_bind (cons_spaces k).good fun _ =>
      good_bind (cons_type_ k 0).good fun _ => good_bind (cons_spaces k).good fun _ =>
      good_bind (cons_char k _).good fun _ => good_bind (cons_gap k 1 _).good fun _ =>
      good_bind (cons_typeAnnotation k 1).good fun _ => good_pure _ _

theorem cons_typeDeclaration (k ind : Nat) : Cons k (typeDeclaration ind) := by
  cases k with
  | zero => intro s hs; omega
  | succ k =>
    exact cons_bind (cons_tag _ _ _) fun _ => good_bind (cons_spaces k).good fun _ =>
      good_bind (cons_type_ k ind).good fun _ => good_bind (cons_gap k 0 _).good fun i =>
      good_bind (cons_char k _).good fun _ => good_bind (cons_gap k i _).good fun _ =>
      good_bind (cons_sepNonemptyList
        (good_bind (cons_gap k i _).good fun _ => good_bind (cons_char k _).good fun _ =>
          good_bind (cons_spaces k).good fun _ => good_pure _ _)
        (cons_typeConstructor k i).good).good fun _ => good_pure _ _

theorem cons_portTypeDeclaration (k : Nat) : Cons k portTypeDeclaration := by
  cases k with
  | zero => intro s hs; omega
  | succ k =>
    exact cons_bind (cons_tag _ _ _) fun _ => good_bind (cons_spaces k).good fun _ =>
      good_bind (cons_loName k).good fun _ => good_bind (cons_spaces k).good fun _ =>
      good_bind (cons_char k _).good fun _ => good_bind (cons_gap k 0 _).good fun i =>
      good_bind (cons_typeAnnotation k i).good fun _ => good_pure _ _

theorem cons_portDeclaration (k : Nat) : Cons k portDeclaration := by
  cases k with
  | zero => intro s hs; omega
  | succ k =>
    exact cons_bind (cons_tag _ _ _) fun _ => good_bind (cons_spaces k).good fun _ =>
      good_bind (cons_loName k).good fun _ =>
      good_bind (good_many0 (good_preceded (cons_spaces k).good (cons_loName k).good)) fun _ =>
      good_bind (cons_spaces k).good fun _ =>
      good_bind (cons_char k _).good fun _ => good_bind (cons_gap k 0 _).good fun i =>
      good_bind (cons_expression k i).good fun _ => good_pure _ _

theorem cons_infixDeclaration (k : Nat) : Cons k infixDeclaration := by
  cases k with
  | zero => intro s hs; omega
  | succ k =>
    exact cons_bind (cons_alt (cons_pmap (cons_tag _ _ _)) (cons_alt (cons_pmap (cons_tag _ _ _))
        (cons_pmap (cons_tag _ _ _)))) fun _ => good_bind (cons_spaces k).good fun _ =>
      good_bind (good_mapRes (cons_digit k).good) fun _ => good_bind (cons_spaces k).good fun _ =>
      good_bind (cons_alt (cons_loName k) (cons_operator k)).good fun _ => good_pure _ _

theorem cons_statement (k : Nat) : Cons k statement :=
  cons_alt (cons_portModuleDeclaration k) <| cons_alt (cons_effectModuleDeclaration k) <|
  cons_alt (cons_moduleDeclaration k) <| cons_alt (cons_importStatement k) <|
  cons_alt (cons_typeAliasDeclaration k) <| cons_alt (cons_typeDeclaration k 0) <|
  cons_alt (cons_portTypeDeclaration k) <| cons_alt (cons_portDeclaration k) <|
  cons_alt (cons_pmap (cons_function k 0)) <| cons_alt (cons_infixDeclaration k) (cons_comment k)

theorem cons_statements (k : Nat) : Cons k statements :=
  delimited_cons (good_multispace0 k)
    (cons_sepNonemptyList (good_multispace0 k) (cons_statement k).good) (good_multispace0 k)

theorem good_eof (k : Nat) : Good k eof := fun s _ => by
  cases s with
  | nil => exact .inr ⟨(), [], rfl, List.suffix_refl _⟩
  | cons c s => exact .inl rfl

theorem good_file (k : Nat) : Good k file := good_terminated (cons_statements k).good (good_eof k)

end ElmParser
