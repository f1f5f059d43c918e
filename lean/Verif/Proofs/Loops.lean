import Verif.Proofs.Unfold

/-! The loops of nom, reduced to finite runs of one parser. -/
namespace ElmParser

variable {α β γ δ : Type}

/-- A run of successful, consuming rounds of `p`. -/
inductive Run (p : Parser α) : Str → List α → Str → Prop
  | nil (s : Str) : Run p s [] s
  | cons {s r t : Str} {v : α} {vs : List α} : p s = .ok v r → r.length < s.length →
      Run p r vs t → Run p s (v :: vs) t

theorem Run.length_le {p : Parser α} {s r : Str} {vs : List α} (h : Run p s vs r) :
    r.length ≤ s.length := by
  induction h with
  | nil => exact Nat.le_refl _
  | cons _ h _ ih => omega

theorem Run.append {p : Parser α} {s r t : Str} {vs ws : List α} (h : Run p s vs r)
    (h' : Run p r ws t) : Run p s (vs ++ ws) t := by
  induction h with
  | nil => exact h'
  | cons h1 h2 _ ih => exact .cons h1 h2 (ih h')

theorem many0Loop_run {p : Parser α} (hp : ∀ k, Cons k p) {n : Nat} {s r : Str} {vs : List α}
    (h : many0Loop p n s = .ok vs r) : Run p s vs r ∧ p r = .err := by
  induction n generalizing s vs with
  | zero => simp [many0Loop] at h
  | succ n ih =>
    simp only [many0Loop] at h
    rcases hp (s.length + 1) s (Nat.lt_succ_self _) with e | ⟨v, t, e, e', e''⟩
    · simp only [e, Res.ok.injEq] at h
      obtain ⟨rfl, rfl⟩ := h
      exact ⟨.nil _, e⟩
    · simp only [e] at h
      rw [if_neg (by rintro rfl; omega), andThen_eq_ok] at h
      obtain ⟨ws, t', h1, h2⟩ := h
      simp only [Res.ok.injEq] at h2
      obtain ⟨rfl, rfl⟩ := h2
      obtain ⟨h3, h4⟩ := ih h1
      exact ⟨.cons e e'' h3, h4⟩

theorem run_many0Loop {p : Parser α} {n : Nat} {s r : Str} {vs : List α}
    (h : Run p s vs r) (hr : p r = .err) (hn : s.length < n) : many0Loop p n s = .ok vs r := by
  induction h generalizing n with
  | nil s =>
    cases n with
    | zero => omega
    | succ n => simp [many0Loop, hr]
  | @cons s r t v vs h1 h2 _ ih =>
    cases n with
    | zero => omega
    | succ n =>
      simp only [many0Loop, h1]
      rw [if_neg (by rintro rfl; omega), ih hr (by omega)]
      rfl

/-- `many0!` of a consuming parser: a run up to the first failure. -/
theorem many0_iff {p : Parser α} (hp : ∀ k, Cons k p) {s r : Str} {vs : List α} :
    many0 p s = .ok vs r ↔ Run p s vs r ∧ p r = .err :=
  ⟨many0Loop_run hp, fun h => run_many0Loop h.1 h.2 (Nat.lt_succ_self _)⟩

theorem many0_ok_of_run {p : Parser α} {s r : Str} {vs : List α} (h : Run p s vs r)
    (hr : p r = .err) : many0 p s = .ok vs r := run_many0Loop h hr (Nat.lt_succ_self _)

theorem sepLoop_eq {sep : Parser β} {p : Parser α} (hsep : ∀ k, Cons k sep)
    (hp : ∀ k, Cons k p) (n : Nat) (s : Str) :
    sepLoop sep p n s = many0Loop (preceded sep p) n s := by
  induction n generalizing s with
  | zero => rfl
  | succ n ih =>
    simp only [sepLoop, many0Loop, preceded_apply]
    rcases hsep (s.length + 1) s (Nat.lt_succ_self _) with e | ⟨w, s2, e, e', e''⟩
    · simp [e]
    · simp only [e, andThen_ok]
      rw [if_neg (by omega)]
      rcases hp (s2.length + 1) s2 (Nat.lt_succ_self _) with g | ⟨v, s3, g, g', g''⟩
      · simp [g]
      · simp only [g]
        rw [if_neg (by omega), if_neg (by rintro rfl; omega), ih]

/-- `separated_nonempty_list!` with consuming separator and element. -/
theorem sepNonemptyList_eq {sep : Parser β} {p : Parser α} (hsep : ∀ k, Cons k sep)
    (hp : ∀ k, Cons k p) :
    sepNonemptyList sep p = (do
      let v ← p
      let vs ← many0 (preceded sep p)
      pure (v :: vs)) := by
  funext s
  simp only [sepNonemptyList, bind_apply]
  rcases hp (s.length + 1) s (Nat.lt_succ_self _) with g | ⟨v, r, g, g', g''⟩
  · simp [g]
  · simp only [g, andThen_ok]
    rw [if_neg (by omega), sepLoop_eq hsep hp]
    rfl

/-- `separated_list!` with consuming separator and element. -/
theorem sepList_eq {sep : Parser β} {p : Parser α} (hsep : ∀ k, Cons k sep)
    (hp : ∀ k, Cons k p) : sepList sep p = (sepNonemptyList sep p </> pure []) := by
  funext s
  simp only [sepNonemptyList, sepList, alt_apply]
  rcases hp (s.length + 1) s (Nat.lt_succ_self _) with g | ⟨v, r, g, g', g''⟩
  · simp [g, pure_apply]
  · simp only [g, andThen_ok]
    rw [if_neg (by omega)]
    obtain ⟨vs, t, h, -⟩ := sepLoop_good (hsep _).good (hp _).good (r.length + 1) r
      (Nat.lt_succ_self _) (Nat.lt_succ_self _)
    rw [h]
    rfl

theorem sepNonemptyList_iff {sep : Parser β} {p : Parser α} (hsep : ∀ k, Cons k sep)
    (hp : ∀ k, Cons k p) {s r : Str} {l : List α} :
    sepNonemptyList sep p s = .ok l r ↔
      ∃ v vs r1, l = v :: vs ∧ p s = .ok v r1 ∧ Run (preceded sep p) r1 vs r ∧
        preceded sep p r = .err := by
  have hc : ∀ k, Cons k (preceded sep p) := fun k => by
    cases k with
    | zero => intro s hs; omega
    | succ k => exact cons_preceded (hsep _) (hp k).good
  rw [sepNonemptyList_eq hsep hp]
  simp only [bind_eq_ok, pure_eq_ok, many0_iff hc]
  constructor
  · rintro ⟨v, r1, h1, vs, r2, ⟨h2, h3⟩, rfl, rfl⟩
    exact ⟨v, vs, r1, rfl, h1, h2, h3⟩
  · rintro ⟨v, vs, r1, rfl, h1, h2, h3⟩
    exact ⟨v, r1, h1, vs, r, ⟨h2, h3⟩, rfl, rfl⟩

theorem sepList_iff {sep : Parser β} {p : Parser α} (hsep : ∀ k, Cons k sep)
    (hp : ∀ k, Cons k p) {s r : Str} {l : List α} :
    sepList sep p s = .ok l r ↔
      (l = [] ∧ r = s ∧ p s = .err) ∨
      (∃ v vs r1, l = v :: vs ∧ p s = .ok v r1 ∧ Run (preceded sep p) r1 vs r ∧
        preceded sep p r = .err) := by
  rw [sepList_eq hsep hp, alt_eq_ok, sepNonemptyList_iff hsep hp, pure_eq_ok]
  have : sepNonemptyList sep p s = .err ↔ p s = .err := by
    simp only [sepNonemptyList]
    rcases hp (s.length + 1) s (Nat.lt_succ_self _) with g | ⟨v, r, g, g', g''⟩
    · simp [g]
    · simp only [g, andThen_ok]
      rw [if_neg (by omega)]
      obtain ⟨vs, t, h, -⟩ := sepLoop_good (hsep _).good (hp _).good (r.length + 1) r
        (Nat.lt_succ_self _) (Nat.lt_succ_self _)
      simp [h]
  rw [this]
  grind

/-- A separator that consumes nothing ends the loop, so `multispace0` as a
separator is `multispace`. -/
theorem sepLoop_multispace0 (p : Parser α) (n : Nat) (s : Str) :
    sepLoop multispace0 p n s = sepLoop multispace p n s := by
  induction n generalizing s with
  | zero => rfl
  | succ n ih =>
    simp only [sepLoop, multispace0, multispace, takeWhile0, takeWhile1]
    have hl : (s.takeWhile isMultispace).length + (s.dropWhile isMultispace).length = s.length := by
      rw [← List.length_append, List.takeWhile_append_dropWhile]
    cases h : s.takeWhile isMultispace with
    | nil =>
      rw [h] at hl
      simp only [List.length_nil, Nat.zero_add] at hl
      simp [hl]
    | cons c cs =>
      simp only
      split
      · rfl
      · cases p (s.dropWhile isMultispace) with
        | ok v r =>
          have := ih r
          simp only [multispace0, multispace] at this
          simp only [this]
        | err => rfl
        | panic => rfl
        | div => rfl

theorem sepNonemptyList_multispace0 (p : Parser α) :
    sepNonemptyList multispace0 p = sepNonemptyList multispace p := by
  funext s
  simp only [sepNonemptyList, sepLoop_multispace0]

theorem lt_of_ok {p : Parser α} (hp : ∀ k, Cons k p) {s r : Str} {v : α} (h : p s = .ok v r) :
    r.length < s.length := by
  rcases hp (s.length + 1) s (Nat.lt_succ_self _) with e | ⟨v', r', e, -, e'⟩
  · rw [h] at e; cases e
  · rw [h] at e
    simp only [Res.ok.injEq] at e
    rw [e.2]; exact e'

theorem suffix_of_ok {p : Parser α} (hp : ∀ k, Good k p) {s r : Str} {v : α} (h : p s = .ok v r) :
    r <:+ s := by
  rcases hp (s.length + 1) s (Nat.lt_succ_self _) with e | ⟨v', r', e, e'⟩
  · rw [h] at e; cases e
  · rw [h] at e
    simp only [Res.ok.injEq] at e
    rw [e.2]; exact e'

/-- A parser that consumes or fails, from its two behaviours. -/
theorem ok_of_ne_err {p : Parser α} (hp : ∀ k, Cons k p) {s : Str} (h : p s ≠ .err) :
    ∃ v r, p s = .ok v r ∧ r <:+ s ∧ r.length < s.length :=
  (hp (s.length + 1) s (Nat.lt_succ_self _)).resolve_left h

theorem err_or_ok {p : Parser α} (hp : ∀ k, Cons k p) (s : Str) :
    p s = .err ∨ ∃ v r, p s = .ok v r ∧ r <:+ s ∧ r.length < s.length :=
  hp (s.length + 1) s (Nat.lt_succ_self _)

/-- `many0!` always succeeds. -/
theorem many0_total {p : Parser α} (hp : ∀ k, Cons k p) (s : Str) :
    ∃ vs r, many0 p s = .ok vs r ∧ Run p s vs r ∧ p r = .err := by
  obtain ⟨vs, r, h, -⟩ := many0Loop_good (hp _).good (s.length + 1) s (Nat.lt_succ_self _)
    (Nat.lt_succ_self _)
  exact ⟨vs, r, h, many0Loop_run hp h⟩

/-- A non-empty list fails only on its first element. -/
theorem sepNonemptyList_err_iff {sep : Parser β} {p : Parser α} (hsep : ∀ k, Cons k sep)
    (hp : ∀ k, Cons k p) {s : Str} : sepNonemptyList sep p s = .err ↔ p s = .err := by
  rw [sepNonemptyList_eq hsep hp, bind_apply]
  rcases err_or_ok hp s with h | ⟨v, r, h, -⟩
  · simp [h]
  · have hc : ∀ k, Cons k (preceded sep p) := fun k => by
      cases k with
      | zero => intro s hs; omega
      | succ k => exact cons_preceded (hsep _) (hp k).good
    obtain ⟨vs, r', h', -⟩ := many0_total hc r
    simp [h, bind_apply, h', pure_apply]

end ElmParser
