import Verif.Model.Statements

/-! Computation and inversion laws of the combinators. -/
namespace ElmParser

variable {α β γ δ : Type}

@[simp] theorem andThen_ok (v : α) (r : Str) (f : α → Str → Res β) :
    (Res.ok v r).andThen f = f v r := rfl
@[simp] theorem andThen_err (f : α → Str → Res β) : (Res.err).andThen f = .err := rfl
@[simp] theorem andThen_panic (f : α → Str → Res β) : (Res.panic).andThen f = .panic := rfl
@[simp] theorem andThen_div (f : α → Str → Res β) : (Res.div).andThen f = .div := rfl
@[simp] theorem orElse_ok (v : α) (r : Str) (y : Res α) : (Res.ok v r).orElse y = .ok v r := rfl
@[simp] theorem orElse_err (y : Res α) : (Res.err).orElse y = y := rfl
@[simp] theorem orElse_panic (y : Res α) : (Res.panic).orElse y = .panic := rfl
@[simp] theorem orElse_div (y : Res α) : (Res.div).orElse y = .div := rfl

theorem bind_apply (p : Parser α) (f : α → Parser β) (s : Str) :
    (p >>= f) s = (p s).andThen f := rfl
theorem pure_apply (v : α) (s : Str) : (pure v : Parser α) s = .ok v s := rfl
theorem fail_apply (s : Str) : (Parser.fail : Parser α) s = .err := rfl
theorem alt_apply (p q : Parser α) (s : Str) : (p </> q) s = (p s).orElse (q s) := rfl
theorem pmap_apply (p : Parser α) (f : α → β) (s : Str) :
    pmap p f s = (p s).andThen fun v r => .ok (f v) r := rfl
theorem value_apply (p : Parser α) (w : β) (s : Str) :
    value w p s = (p s).andThen fun _ r => .ok w r := rfl
theorem preceded_apply (p : Parser α) (q : Parser β) (s : Str) :
    preceded p q s = (p s).andThen fun _ r => q r := rfl
theorem terminated_apply (p : Parser α) (q : Parser β) (s : Str) :
    terminated p q s = (p s).andThen fun v r => (q r).andThen fun _ r' => .ok v r' := rfl
theorem delimited_apply (p : Parser α) (q : Parser β) (t : Parser γ) (s : Str) :
    delimited p q t s = (p s).andThen fun _ r => (q r).andThen fun v r' =>
      (t r').andThen fun _ r'' => .ok v r'' := rfl
theorem separatedPair_apply (p : Parser α) (t : Parser γ) (q : Parser β) (s : Str) :
    separatedPair p t q s = (p s).andThen fun a r => (t r).andThen fun _ r' =>
      (q r').andThen fun b r'' => .ok (a, b) r'' := rfl
theorem opt_apply (p : Parser α) (s : Str) :
    opt p s = ((p s).andThen fun v r => Res.ok (some v) r).orElse (.ok none s) := rfl
theorem mapRes_apply (p : Parser α) (f : α → Option β) (s : Str) :
    mapRes p f s = (p s).andThen fun v r => match f v with
      | some w => .ok w r
      | none => .err := by
  unfold mapRes
  rw [bind_apply]
  congr 1
  funext v r
  cases f v <;> rfl
theorem many1_apply (p : Parser α) (s : Str) :
    many1 p s = (p s).andThen fun v r => (many0 p r).andThen fun vs r' => .ok (v :: vs) r' := rfl

/-- All the computation rules, to run a parser on a given input. -/
macro "prun" : tactic => `(tactic| simp only [bind_apply, pure_apply, fail_apply, alt_apply,
  pmap_apply, value_apply, preceded_apply, terminated_apply, delimited_apply,
  separatedPair_apply, opt_apply, mapRes_apply, many1_apply, andThen_ok, andThen_err,
  andThen_panic, andThen_div, orElse_ok, orElse_err, orElse_panic, orElse_div])

theorem andThen_eq_ok {x : Res α} {f : α → Str → Res β} {b : β} {r : Str} :
    x.andThen f = .ok b r ↔ ∃ a r1, x = .ok a r1 ∧ f a r1 = .ok b r := by
  cases x <;> simp <;> grind

theorem orElse_eq_ok {x y : Res α} {b : α} {r : Str} :
    x.orElse y = .ok b r ↔ x = .ok b r ∨ (x = .err ∧ y = .ok b r) := by
  cases x <;> simp

theorem bind_eq_ok {p : Parser α} {f : α → Parser β} {s r : Str} {b : β} :
    (p >>= f) s = .ok b r ↔ ∃ a r1, p s = .ok a r1 ∧ f a r1 = .ok b r := andThen_eq_ok

theorem pure_eq_ok {v w : α} {s r : Str} :
    (pure v : Parser α) s = .ok w r ↔ v = w ∧ s = r := by
  simp [pure_apply]

theorem fail_eq_ok {w : α} {s r : Str} : (Parser.fail : Parser α) s = .ok w r ↔ False := by
  simp [fail_apply]

theorem alt_eq_ok {p q : Parser α} {s r : Str} {v : α} :
    (p </> q) s = .ok v r ↔ p s = .ok v r ∨ (p s = .err ∧ q s = .ok v r) := orElse_eq_ok

theorem pmap_eq_ok {p : Parser α} {f : α → β} {s r : Str} {w : β} :
    pmap p f s = .ok w r ↔ ∃ v, p s = .ok v r ∧ f v = w := by
  rw [pmap_apply, andThen_eq_ok]
  constructor
  · rintro ⟨v, r1, h, h'⟩
    simp only [Res.ok.injEq] at h'
    exact ⟨v, by rw [h, h'.2], h'.1⟩
  · rintro ⟨v, h, rfl⟩
    exact ⟨v, r, h, rfl⟩

theorem value_eq_ok {p : Parser α} {w w' : β} {s r : Str} :
    value w p s = .ok w' r ↔ ∃ v, p s = .ok v r ∧ w = w' := pmap_eq_ok

theorem preceded_eq_ok {p : Parser α} {q : Parser β} {s r : Str} {w : β} :
    preceded p q s = .ok w r ↔ ∃ v r1, p s = .ok v r1 ∧ q r1 = .ok w r := by
  rw [preceded_apply, andThen_eq_ok]

theorem terminated_eq_ok {p : Parser α} {q : Parser β} {s r : Str} {v : α} :
    terminated p q s = .ok v r ↔ ∃ r1 w, p s = .ok v r1 ∧ q r1 = .ok w r := by
  simp only [terminated_apply, andThen_eq_ok, Res.ok.injEq]
  constructor
  · rintro ⟨v, r1, h, w, r2, h', rfl, rfl⟩
    exact ⟨r1, w, h, h'⟩
  · rintro ⟨r1, w, h, h'⟩
    exact ⟨v, r1, h, w, r, h', rfl, rfl⟩

theorem delimited_eq_ok {p : Parser α} {q : Parser β} {t : Parser γ} {s r : Str} {v : β} :
    delimited p q t s = .ok v r ↔
      ∃ a r1 r2 c, p s = .ok a r1 ∧ q r1 = .ok v r2 ∧ t r2 = .ok c r := by
  simp only [delimited_apply, andThen_eq_ok, Res.ok.injEq]
  constructor
  · rintro ⟨a, r1, h, v, r2, h', c, r3, h'', rfl, rfl⟩
    exact ⟨a, r1, r2, c, h, h', h''⟩
  · rintro ⟨a, r1, r2, c, h, h', h''⟩
    exact ⟨a, r1, h, v, r2, h', c, r, h'', rfl, rfl⟩

theorem separatedPair_eq_ok {p : Parser α} {q : Parser β} {t : Parser γ} {s r : Str} {v : α × β} :
    separatedPair p t q s = .ok v r ↔
      ∃ r1 c r2, p s = .ok v.1 r1 ∧ t r1 = .ok c r2 ∧ q r2 = .ok v.2 r := by
  simp only [separatedPair_apply, andThen_eq_ok, Res.ok.injEq]
  constructor
  · rintro ⟨a, r1, h, c, r2, h', b, r3, h'', rfl, rfl⟩
    exact ⟨r1, c, r2, h, h', h''⟩
  · rintro ⟨r1, c, r2, h, h', h''⟩
    exact ⟨v.1, r1, h, c, r2, h', v.2, r, h'', rfl, rfl⟩

theorem mapRes_eq_ok {p : Parser α} {f : α → Option β} {s r : Str} {w : β} :
    mapRes p f s = .ok w r ↔ ∃ v, p s = .ok v r ∧ f v = some w := by
  rw [mapRes_apply, andThen_eq_ok]
  constructor
  · rintro ⟨v, r1, h, h'⟩
    cases hf : f v with
    | none => simp [hf] at h'
    | some x =>
      simp only [hf, Res.ok.injEq] at h'
      exact ⟨v, by rw [h, h'.2], by rw [hf, h'.1]⟩
  · rintro ⟨v, h, h'⟩
    exact ⟨v, r, h, by simp [h']⟩

theorem opt_eq_ok {p : Parser α} {s r : Str} {o : Option α} :
    opt p s = .ok o r ↔
      (∃ v, p s = .ok v r ∧ o = some v) ∨ (p s = .err ∧ o = none ∧ r = s) := by
  rw [opt_apply]
  cases h : p s <;> simp <;> grind

theorem many1_eq_ok {p : Parser α} {s r : Str} {l : List α} :
    many1 p s = .ok l r ↔
      ∃ v vs r1, l = v :: vs ∧ p s = .ok v r1 ∧ many0 p r1 = .ok vs r := by
  simp only [many1_apply, andThen_eq_ok, Res.ok.injEq]
  grind

theorem char_eq_ok {c d : Char} {s r : Str} : char c s = .ok d r ↔ d = c ∧ s = c :: r := by
  cases s with
  | nil => simp [char]
  | cons x s =>
    simp only [char]
    split <;> simp <;> grind

@[simp] theorem char_cons (c : Char) (s : Str) : char c (c :: s) = .ok c s := by
  simp [char]
theorem char_cons_ne {c d : Char} (s : Str) (h : d ≠ c) : char c (d :: s) = .err := by
  simp [char, h]
@[simp] theorem char_nil (c : Char) : char c [] = .err := rfl

theorem stripPrefix_eq_some {t s r : Str} : stripPrefix t s = some r ↔ s = t ++ r := by
  induction t generalizing s with
  | nil => simp [stripPrefix]
  | cons c t ih =>
    cases s with
    | nil => simp [stripPrefix]
    | cons d s =>
      simp only [stripPrefix]
      split
      · next h => subst h; simp [ih]
      · next h => simp; grind

@[simp] theorem stripPrefix_append (t r : Str) : stripPrefix t (t ++ r) = some r :=
  stripPrefix_eq_some.2 rfl

theorem tag_eq_ok {t v s r : Str} : tag t s = .ok v r ↔ v = t ∧ s = t ++ r := by
  simp only [tag]
  cases h : stripPrefix t s with
  | none =>
    simp only [reduceCtorEq, false_iff, not_and]
    rintro - rfl
    simp at h
  | some x =>
    rw [stripPrefix_eq_some] at h
    subst h
    simp; grind

@[simp] theorem tag_append (t r : Str) : tag t (t ++ r) = .ok t r := tag_eq_ok.2 ⟨rfl, rfl⟩

theorem takeWhile1_eq_ok {f : Char → Bool} {v s r : Str} :
    takeWhile1 f s = .ok v r ↔ v ≠ [] ∧ v = s.takeWhile f ∧ r = s.dropWhile f := by
  simp only [takeWhile1]
  cases h : s.takeWhile f <;> simp <;> grind

theorem takeWhile0_eq_ok {f : Char → Bool} {v s r : Str} :
    takeWhile0 f s = .ok v r ↔ v = s.takeWhile f ∧ r = s.dropWhile f := by
  simp only [takeWhile0]; simp; grind

theorem reMatches_eq_ok {re : Regex} {v : List Str} {s r : Str} :
    reMatches re s = .ok v r ↔ ∃ m, re s = some (m, r) ∧ v = [m] := by
  simp only [reMatches]
  cases h : re s <;> simp <;> grind

theorem index_eq_ok {v : List α} {i : Nat} {x : α} {s r : Str} :
    index v i s = .ok x r ↔ v[i]? = some x ∧ s = r := by
  simp only [index]
  cases h : v[i]? <;> simp <;> grind

/-- A string of characters satisfying `f` followed by something that does not
start with such a character is what `takeWhile`/`dropWhile` split. -/
def NotStart (f : Char → Bool) (s : Str) : Prop := ∀ c r, s = c :: r → f c = false

theorem notStart_nil (f : Char → Bool) : NotStart f [] := by simp [NotStart]
theorem notStart_cons {f : Char → Bool} {c : Char} {s : Str} : NotStart f (c :: s) ↔ f c = false := by
  simp [NotStart]

theorem takeWhile_append_notStart {f : Char → Bool} {a b : Str} (ha : ∀ c ∈ a, f c = true)
    (hb : NotStart f b) : (a ++ b).takeWhile f = a := by
  induction a with
  | nil =>
    cases b with
    | nil => rfl
    | cons c b => simp [notStart_cons.1 hb]
  | cons x a ih =>
    simp only [List.mem_cons, forall_eq_or_imp] at ha
    simp [ha.1, ih ha.2]

theorem dropWhile_append_notStart {f : Char → Bool} {a b : Str} (ha : ∀ c ∈ a, f c = true)
    (hb : NotStart f b) : (a ++ b).dropWhile f = b := by
  induction a with
  | nil =>
    cases b with
    | nil => rfl
    | cons c b => simp [notStart_cons.1 hb]
  | cons x a ih =>
    simp only [List.mem_cons, forall_eq_or_imp] at ha
    simp [ha.1, ih ha.2]

theorem notStart_dropWhile (f : Char → Bool) (s : Str) : NotStart f (s.dropWhile f) := by
  induction s with
  | nil => exact notStart_nil f
  | cons c s ih =>
    by_cases h : f c = true
    · simpa [h] using ih
    · simp [h, notStart_cons]

theorem mem_takeWhile {f : Char → Bool} {s : Str} {c : Char} (h : c ∈ s.takeWhile f) :
    f c = true := by
  induction s with
  | nil => simp at h
  | cons d s ih =>
    by_cases hd : f d = true
    · simp [hd] at h
      rcases h with rfl | h
      · exact hd
      · exact ih h
    · simp [hd] at h

/-- The declarative reading of a maximal run. -/
theorem span_iff {f : Char → Bool} {v s r : Str} :
    (v = s.takeWhile f ∧ r = s.dropWhile f) ↔
      s = v ++ r ∧ (∀ c ∈ v, f c = true) ∧ NotStart f r := by
  constructor
  · rintro ⟨rfl, rfl⟩
    exact ⟨(List.takeWhile_append_dropWhile).symm, fun c h => mem_takeWhile h,
      notStart_dropWhile f s⟩
  · rintro ⟨rfl, h1, h2⟩
    rw [takeWhile_append_notStart h1 h2, dropWhile_append_notStart h1 h2]
    exact ⟨rfl, rfl⟩

theorem takeWhile1_iff {f : Char → Bool} {v s r : Str} :
    takeWhile1 f s = .ok v r ↔
      s = v ++ r ∧ v ≠ [] ∧ (∀ c ∈ v, f c = true) ∧ NotStart f r := by
  rw [takeWhile1_eq_ok, span_iff]; grind

theorem takeWhile0_iff {f : Char → Bool} {v s r : Str} :
    takeWhile0 f s = .ok v r ↔ s = v ++ r ∧ (∀ c ∈ v, f c = true) ∧ NotStart f r := by
  rw [takeWhile0_eq_ok, span_iff]

theorem takeWhile1_err {f : Char → Bool} {s : Str} : takeWhile1 f s = .err ↔ NotStart f s := by
  cases s with
  | nil => simp [takeWhile1, notStart_nil]
  | cons c s =>
    simp only [takeWhile1, notStart_cons]
    by_cases h : f c = true <;> simp [h]

theorem reHeadTail_iff {h t : Char → Bool} {s m r : Str} :
    reHeadTail h t s = some (m, r) ↔
      s = m ++ r ∧ (∃ c cs, m = c :: cs ∧ h c = true ∧ ∀ x ∈ cs, t x = true) ∧ NotStart t r := by
  cases s with
  | nil => simp [reHeadTail]; grind
  | cons c s =>
    simp only [reHeadTail]
    split
    · next hc =>
      simp only [Option.some.injEq, Prod.mk.injEq]
      constructor
      · rintro ⟨rfl, rfl⟩
        obtain ⟨h1, h2, h3⟩ := (span_iff (s := s) (f := t)).1 ⟨rfl, rfl⟩
        exact ⟨by rw [List.cons_append, ← h1], ⟨c, _, rfl, hc, h2⟩, h3⟩
      · rintro ⟨h1, ⟨c', cs, rfl, -, h3⟩, h4⟩
        simp only [List.cons_append, List.cons.injEq] at h1
        obtain ⟨rfl, h1⟩ := h1
        obtain ⟨e1, e2⟩ := (span_iff (f := t)).2 ⟨h1, h3, h4⟩
        exact ⟨by rw [e1], e2.symm⟩
    · next hc =>
      simp only [reduceCtorEq, false_iff]
      rintro ⟨h1, ⟨c', cs, rfl, h2, -⟩, -⟩
      simp only [List.cons_append, List.cons.injEq] at h1
      rw [h1.1] at hc
      exact hc h2

theorem reHeadTail_none {h t : Char → Bool} {s : Str} :
    reHeadTail h t s = none ↔ NotStart h s := by
  cases s with
  | nil => simp [reHeadTail, notStart_nil]
  | cons c s => simp only [reHeadTail, notStart_cons]; split <;> simp_all

end ElmParser
