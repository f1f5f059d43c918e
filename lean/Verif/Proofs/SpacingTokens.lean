import Verif.Proofs.RenameParsers
import Verif.Proofs.Spacing
import Verif.Proofs.StmtOrder

/-! The simulation of `Proofs/Spacing.lean` for the tokens: names, keywords, signs, white space, literals and layout. -/
namespace ElmParser
open Spec Spec.Spacing Spec.Rename
set_option linter.unusedSectionVars false

namespace Lk

variable {α β γ δ : Type} {K : Str → Str → Prop} {R : α → β → Prop} {Q : γ → δ → Prop}

/-! ### Signs and keywords -/

theorem e_char {c : Char} (hc : Simple c) : E K (char c) (char c) := fun s s' hs => by
  obtain ⟨p, h⟩ := hs
  cases s with
  | nil => rw [nilL h]; exact .err
  | cons d s =>
    by_cases e : d = c
    · subst e
      obtain ⟨t, rfl, g⟩ := simple h hc
      rw [char_cons, char_cons]
      exact sm_ok rfl ⟨_, g⟩ (u := [d]) (u' := [d]) rfl rfl (by simp) (by simp)
    · obtain ⟨t, rfl⟩ := headL h
      rw [char_cons_ne _ e, char_cons_ne _ e]
      exact .err

theorem strip_simple {k : Str} (hk : ∀ c ∈ k, Simple c) {s t : Str} (h : T K s t) :
    (∃ r r', stripPrefix k s = some r ∧ stripPrefix k t = some r' ∧ T K r r' ∧ s = k ++ r ∧ t = k ++ r') ∨
    (stripPrefix k s = none ∧ stripPrefix k t = none) := by
  induction k generalizing s t with
  | nil => exact .inl ⟨s, t, rfl, rfl, h, rfl, rfl⟩
  | cons c k ih =>
    obtain ⟨p, h⟩ := h
    cases s with
    | nil => rw [nilL h]; exact .inr ⟨rfl, rfl⟩
    | cons d s =>
      by_cases e : d = c
      · subst e
        obtain ⟨t, rfl, g⟩ := simple h (hk _ (by simp))
        simp only [stripPrefix, if_true]
        rcases ih (fun c hc => hk c (List.mem_cons_of_mem _ hc)) ⟨_, g⟩ with ⟨r, r', a, b, h, e1, e2⟩ | h
        · exact .inl ⟨r, r', a, b, h, by rw [e1]; rfl, by rw [e2]; rfl⟩
        · exact .inr h
      · obtain ⟨t, rfl⟩ := headL h
        simp [stripPrefix, e]

theorem e_tag {c : Char} {k : Str} (hk : ∀ d ∈ c :: k, Simple d) : E K (tag (c :: k)) (tag (c :: k)) := fun s s' hs => by
  unfold tag
  rcases strip_simple hk hs with ⟨r, r', h1, h2, h, e, e'⟩ | ⟨h1, h2⟩
  · rw [h1, h2]; exact sm_ok rfl h e e' (by simp) (by simp)
  · rw [h1, h2]; exact .err

theorem tag2 (a b : Char) (s : Str) : tag [a, b] s = (char a s).andThen fun _ r => (char b r).andThen fun _ r => .ok [a, b] r := by
  cases s with
  | nil => rfl
  | cons c s =>
    by_cases e : c = a
    · subst e
      cases s with
      | nil => simp [tag, stripPrefix]
      | cons d s =>
        by_cases e : d = b
        · subst e; simp [tag, stripPrefix]
        · simp [tag, stripPrefix, e, char_cons_ne _ e]
    · simp [tag, stripPrefix, e, char_cons_ne _ e]

/-- A comma and a space. -/
theorem e_commaSpace : E K (tag c!", ") (tag c!", ") := fun s s' hs => by
  obtain ⟨p, h⟩ := hs
  rw [tag2, tag2]
  cases s with
  | nil => rw [nilL h]; exact .err
  | cons d s =>
    by_cases e : d = ','
    · subst e
      obtain ⟨t, rfl, g⟩ := simple h (by decide)
      rw [char_cons, char_cons, andThen_ok, andThen_ok]
      cases s with
      | nil => rw [nilL g]; exact .err
      | cons d s =>
        by_cases e : d = ' '
        · subst e
          obtain ⟨t, rfl, k⟩ := space g (by decide)
          rw [char_cons, char_cons, andThen_ok, andThen_ok]
          exact sm_ok rfl ⟨_, k⟩ (u := c!", ") (u' := c!", ") rfl rfl (by simp) (by simp)
        · obtain ⟨t, rfl⟩ := headL g
          rw [char_cons_ne _ e, char_cons_ne _ e]
          exact .err
    · obtain ⟨t, rfl⟩ := headL h
      rw [char_cons_ne _ e, char_cons_ne _ e]
      exact .err

/-- An arrow. -/
theorem e_arrow : E K (tag c!"->") (tag c!"->") := fun s s' hs => by
  obtain ⟨p, h⟩ := hs
  cases s with
  | nil => rw [nilL h]; exact .err
  | cons d s =>
    by_cases e : d = '-'
    · subst e
      rcases dash h with ⟨t, rfl, -, g⟩ | ⟨u, v, r, r', -, rfl, rfl, -⟩ | ⟨w, r, r', rfl, rfl, -⟩
      · rw [tag2, tag2, char_cons, char_cons, andThen_ok, andThen_ok]
        cases s with
        | nil => rw [nilL g]; exact .err
        | cons d s =>
          by_cases e : d = '>'
          · subst e
            obtain ⟨t, rfl, k⟩ := simple g (by decide)
            rw [char_cons, char_cons, andThen_ok, andThen_ok]
            exact sm_ok rfl ⟨_, k⟩ (u := c!"->") (u' := c!"->") rfl rfl (by simp) (by simp)
          · obtain ⟨t, rfl⟩ := headL g
            rw [char_cons_ne _ e, char_cons_ne _ e]
            exact .err
      · exact .err
      · exact .err
    · obtain ⟨t, rfl⟩ := headL h
      rw [tag2, tag2, char_cons_ne _ e, char_cons_ne _ e]
      exact .err

/-! ### White space -/

/-- The first text of white space, when only its presence matters. -/
theorem drop_white {f : Char → Bool} (hf : ∀ c, f c = true → White c) (h0 : f ' ' = true) {p : Char} {s t : Str}
    (h : Like K p s t) : T K (s.dropWhile f) (t.dropWhile f) := by
  have no : ∀ {c}, ¬ White c → f c = false := fun {c} hc => by
    cases e : f c with
    | false => rfl
    | true => exact absurd (hf c e) hc
  have hsp : ∀ (k : Nat) (x : Str), (sp k ++ x).dropWhile f = x.dropWhile f := by
    intro k x
    induction k with
    | zero => rfl
    | succ k ih => rw [sp, List.replicate_succ, List.cons_append, List.dropWhile_cons, if_pos h0]; exact ih
  have keep : ∀ {p c : Char} {x y : Str}, ¬ White c → Like K p (c :: x) (c :: y) →
      T K ((c :: x).dropWhile f) ((c :: y).dropWhile f) := fun {p c x y} hc h => by
    have e : ¬ f c = true := by rw [no hc]; decide
    rw [List.dropWhile_cons, if_neg e, List.dropWhile_cons, if_neg e]
    exact ⟨p, h⟩
  induction h with
  | nil => exact ⟨' ', .nil⟩
  | @char p c s t h1 h2 h3 h4 ih =>
    cases e : f c with
    | true => rw [List.dropWhile_cons, if_pos e, List.dropWhile_cons, if_pos e]; exact ih
    | false =>
      have e' : ¬ f c = true := by simp [e]
      rw [List.dropWhile_cons, if_neg e', List.dropWhile_cons, if_neg e']; exact ⟨_, .char h1 h2 h3 h4⟩
  | spaces h1 h2 ih => rw [hsp, hsp]; exact ih
  | @blank p k ks k' ks' s t h ih =>
    cases e : f '\n' with
    | true =>
      have hbl : ∀ (ks : List Nat) (x : Str), (blankLines ks ++ x).dropWhile f = x.dropWhile f := by
        intro ks x
        induction ks with
        | nil => rfl
        | cons k ks ih =>
          rw [blankLines, List.flatMap_cons, List.append_assoc, List.append_assoc, hsp, List.singleton_append,
            List.dropWhile_cons, if_pos e]
          exact ih
      rw [List.cons_append, List.cons_append, List.dropWhile_cons, if_pos e, List.dropWhile_cons, if_pos e, hbl, hbl]
      exact ih
    | false =>
      have e' : ¬ f '\n' = true := by simp [e]
      rw [List.cons_append, List.cons_append, List.dropWhile_cons, if_neg e', List.dropWhile_cons, if_neg e']
      exact ⟨_, .blank (p := p) h⟩
  | comment h1 h2 h3 h4 h5 h6 h7 h8 => exact keep (by decide) (.comment h1 h2 h3 h4 h5 h6 h7 h8)
  | dashes h1 h2 h3 => exact keep (by decide) (.dashes h1 h2 h3)
  | block h1 h2 h3 h4 h5 h6 h7 h8 => exact keep (p := ' ') (by decide) (.block h1 h2 h3 h4 h5 h6 h7 h8)
  | string h1 h2 h3 => exact keep (p := ' ') (by decide) (.string h1 h2 h3)
  | longString h1 h2 => exact keep (p := ' ') (by decide) (.longString h1 h2)
  | character h1 => exact keep (p := ' ') (by decide) (.character h1)
  | hexadecimal h1 => exact keep (p := ' ') (by decide) (.hexadecimal h1)

theorem take_nil_iff (f : Char → Bool) {p : Char} {s t : Str} (h : Like K p s t) :
    s.takeWhile f = [] ↔ t.takeWhile f = [] := by
  cases s with
  | nil => rw [nilL h]
  | cons c s =>
    obtain ⟨t', rfl⟩ := headL h
    cases e : f c <;> simp [e]

theorem a_takeWhile0 {f : Char → Bool} (hf : ∀ c, f c = true → White c) (h0 : f ' ' = true) :
    A K (takeWhile0 f) (takeWhile0 f) := fun _ _ ⟨_, hs⟩ =>
  .ok trivial (drop_white hf h0 hs) (List.dropWhile_suffix _) (List.dropWhile_suffix _) (Rn.length_tw (take_nil_iff f hs))
theorem a_takeWhile1 {f : Char → Bool} (hf : ∀ c, f c = true → White c) (h0 : f ' ' = true) :
    A K (takeWhile1 f) (takeWhile1 f) := fun s s' ⟨_, hs⟩ => by
  unfold takeWhile1
  have e := take_nil_iff f hs
  cases h : s.takeWhile f with
  | nil => rw [e.1 h]; exact .err
  | cons c cs =>
    cases h' : s'.takeWhile f with
    | nil => rw [e.2 h'] at h; cases h
    | cons d ds =>
      exact .ok trivial (drop_white hf h0 hs) (List.dropWhile_suffix _) (List.dropWhile_suffix _) (Rn.length_tw e)

theorem a_spaces : A K spaces spaces := a_takeWhile1 (by intro c h; simp at h; exact .inl h) rfl
theorem a_sn : A K spacesAndNewlines spacesAndNewlines :=
  a_takeWhile1 (by intro c h; simp at h; rcases h with h | h <;> simp [White, h]) rfl
theorem a_multispace0 : A K multispace0 multispace0 := a_takeWhile0 (fun _ h => isMultispace_iff.1 h) rfl
theorem a_multispace : A K multispace multispace := a_takeWhile1 (fun _ h => isMultispace_iff.1 h) rfl
theorem a_space1 : A K space1 space1 :=
  a_takeWhile1 (by intro c h; simp at h; rcases h with h | h <;> simp [White, h]) rfl

/-! ### Words -/

theorem tw_simple {f : Char → Bool} (hf : ∀ c, f c = true → Simple c) {s t : Str} (h : T K s t) :
    s.takeWhile f = t.takeWhile f ∧ T K (s.dropWhile f) (t.dropWhile f) := by
  induction s generalizing t with
  | nil =>
    obtain ⟨p, h⟩ := h
    rw [nilL h]
    exact ⟨rfl, p, .nil⟩
  | cons c s ih =>
    obtain ⟨p, h⟩ := h
    cases e : f c with
    | true =>
      obtain ⟨t, rfl, g⟩ := simple h (hf c e)
      simp only [List.takeWhile_cons, List.dropWhile_cons, e, if_true, List.cons.injEq, true_and]
      exact ih ⟨_, g⟩
    | false =>
      obtain ⟨t, rfl⟩ := headL h
      simp only [List.takeWhile_cons, List.dropWhile_cons, e, Bool.false_eq_true, if_false, true_and]
      exact ⟨_, h⟩

theorem e_takeWhile1 {f : Char → Bool} (hf : ∀ c, f c = true → Simple c) : E K (takeWhile1 f) (takeWhile1 f) :=
  fun s s' hs => by
  obtain ⟨h1, h2⟩ := tw_simple hf hs
  unfold takeWhile1
  rw [h1]
  split
  · exact .err
  · exact .ok rfl h2 (List.dropWhile_suffix _) (List.dropWhile_suffix _) (Rn.length_tw (by rw [h1]))

theorem e_word {f g : Char → Bool} (hf : ∀ c, f c = true → Simple c) (hg : ∀ c, g c = true → Simple c) :
    E K (reMatches (reHeadTail f g)) (reMatches (reHeadTail f g)) := fun s s' hs => by
  obtain ⟨p, h⟩ := hs
  cases s with
  | nil => rw [nilL h]; exact .err
  | cons c s =>
    cases e : f c with
    | true =>
      obtain ⟨t, rfl, k⟩ := simple h (hf c e)
      obtain ⟨h1, h2⟩ := tw_simple hg ⟨_, k⟩
      simp only [reMatches, reHeadTail, e, if_true]
      exact sm_ok (by rw [h1]) h2 (u := c :: s.takeWhile g) (u' := c :: t.takeWhile g) (by simp) (by simp) (by simp) (by simp)
    | false =>
      obtain ⟨t, rfl⟩ := headL h
      simp only [reMatches, reHeadTail, e]
      exact .err

theorem simple_ident {c : Char} (h : IdentChar c) : Simple c := by
  refine ⟨?_, ?_, ?_, ?_, ?_, ?_⟩ <;> (rintro rfl; exact absurd h (by decide))
theorem simple_isIdent : ∀ c, isIdent c = true → Simple c := fun _ h => simple_ident (isIdent_iff.1 h)
theorem simple_isLower : ∀ c, isLower c = true → Simple c := fun _ h => simple_ident (.inl (isLower_iff.1 h))
theorem simple_isUpper : ∀ c, isUpper c = true → Simple c := fun _ h => simple_ident (.inr (.inl (isUpper_iff.1 h)))
theorem simple_isDigit : ∀ c, isDigit c = true → Simple c := fun _ h => simple_ident (.inr (.inr (.inl (isDigit_iff.1 h))))
theorem simple_isTyVar : ∀ c, isTyVarChar c = true → Simple c := fun _ h => simple_ident (Rn.tyVar_ident (isTyVarChar_iff.1 h))
theorem simple_op {c : Char} (h : OpChar c) (h' : c ≠ '-') : Simple c := by
  refine ⟨?_, ?_, h', ?_, ?_, ?_⟩ <;> (rintro rfl; exact absurd h (by decide))

theorem e_digit : E K digit digit := e_takeWhile1 simple_isDigit
theorem e_loName : E K loName loName :=
  s_alt (e_tag (by decide)) (e0 (e_word simple_isLower simple_isIdent) fun v => e0 (e_index v 0) fun n => by
    split
    · exact s_fail
    · exact s_pure rfl)
theorem e_functionName : E K functionName functionName := e_pmap _ e_loName
theorem e_upName : E K upName upName := e0 (e_word simple_isUpper simple_isIdent) fun v => e_index v 0
theorem e_dotted : E K (sepNonemptyList (char '.') upName) (sepNonemptyList (char '.') upName) :=
  e_sepNonemptyList (e_char (by decide)) e_upName
theorem e_typeVariable : E K typeVariable typeVariable :=
  e0 (e_word simple_isLower simple_isTyVar) fun v => e0 (e_index v 0) fun _ => s_pure rfl

/-! ### Operators and numbers -/

/-- The rest of an operator. -/
theorem op_run {n : Nat} {p : Char} {s t : Str} (hn : s.length ≤ n) (hp : OpChar p) (h : Like K p s t) :
    s.takeWhile isOpChar = t.takeWhile isOpChar ∧ T K (s.dropWhile isOpChar) (t.dropWhile isOpChar) := by
  induction n generalizing p s t with
  | zero =>
    cases List.length_eq_zero_iff.1 (Nat.le_zero.1 hn)
    rw [nilL h]
    exact ⟨rfl, p, .nil⟩
  | succ n ih =>
    cases s with
    | nil => rw [nilL h]; exact ⟨rfl, p, .nil⟩
    | cons c s =>
      simp only [List.length_cons] at hn
      cases e : isOpChar c with
      | false =>
        obtain ⟨t, rfl⟩ := headL h
        simp only [List.takeWhile_cons, List.dropWhile_cons, e, Bool.false_eq_true, if_false, true_and]
        exact ⟨_, h⟩
      | true =>
        have ho := isOpChar_iff.1 e
        by_cases hc : c = '-'
        · subst hc
          rcases dash h with ⟨t, rfl, -, g⟩ | ⟨u, v, r, r', g, -⟩ | ⟨w, r, r', rfl, rfl, g1, g2, g3⟩
          · simp only [List.takeWhile_cons, List.dropWhile_cons, e, if_true, List.cons.injEq, true_and]
            exact ih (by omega) ho g
          · exact absurd hp g
          · simp only [List.takeWhile_cons, List.dropWhile_cons, List.cons_append, e, if_true, List.cons.injEq, true_and]
            exact ih (by simp at hn ⊢; omega) ho (line g1 g2 g3 _)
        · obtain ⟨t, rfl, g⟩ := simple h (simple_op ho hc)
          simp only [List.takeWhile_cons, List.dropWhile_cons, e, if_true, List.cons.injEq, true_and]
          exact ih (by omega) ho g

theorem operator_eq (s : Str) : operator s = match s.takeWhile isOpChar with
    | [] => .err
    | c :: cs => if c :: cs ∈ reservedOperators then .err else .ok (c :: cs) (s.dropWhile isOpChar) := by
  unfold operator
  rw [bind_apply]
  cases s with
  | nil => rfl
  | cons c s =>
    cases e : isOpChar c with
    | false => simp [reMatches, rePlus, reHeadTail, e]
    | true =>
      simp only [reMatches, rePlus, reHeadTail, e, if_true, andThen_ok, bind_apply, index, List.getElem?_cons_zero,
        List.takeWhile_cons, List.dropWhile_cons]
      split <;> rfl

/-- Two dashes alone are no operator. -/
theorem operator_dashes {u r : Str} (hu : Next (fun c => ¬ OpChar c) u) (hr : Next (· = '\n') r) :
    operator ('-' :: '-' :: u ++ r) = .err := by
  have : (u ++ r).takeWhile isOpChar = [] := by
    cases u with
    | nil =>
      cases r with
      | nil => rfl
      | cons c r => cases next_cons.1 hr; rfl
    | cons c u =>
      have := next_cons.1 hu
      rw [← isOpChar_iff, Bool.not_eq_true] at this
      simp [this]
  have h0 : isOpChar '-' = true := by decide
  rw [operator_eq]
  simp only [List.cons_append, List.takeWhile_cons, h0, if_true, this]
  rw [if_pos (by decide)]

theorem e_operator : E K operator operator := fun s s' hs => by
  have key : ∀ {s s' : Str}, s.takeWhile isOpChar = s'.takeWhile isOpChar → T K (s.dropWhile isOpChar) (s'.dropWhile isOpChar) →
      Sm K Eq s s' (operator s) (operator s') := by
    intro s s' h1 h2
    rw [operator_eq, operator_eq, h1]
    cases e : s'.takeWhile isOpChar with
    | nil => exact .err
    | cons c cs =>
      dsimp only
      split
      · exact .err
      · exact .ok rfl h2 (List.dropWhile_suffix _) (List.dropWhile_suffix _) (Rn.length_tw (by rw [h1]))
  have h0 : isOpChar '-' = true := by decide
  obtain ⟨p, h⟩ := hs
  cases s with
  | nil => rw [nilL h]; exact .err
  | cons c s =>
    cases e : isOpChar c with
    | false =>
      obtain ⟨t, rfl⟩ := headL h
      exact key (by simp [e]) (by simp only [List.dropWhile_cons, e, Bool.false_eq_true, if_false]; exact ⟨_, h⟩)
    | true =>
      have ho := isOpChar_iff.1 e
      by_cases hc : c = '-'
      · subst hc
        rcases dash h with ⟨t, rfl, -, g⟩ | ⟨u, v, r, r', g1, rfl, rfl, g2, g3, g4, g5, g6, g7, g8⟩ |
          ⟨w, r, r', rfl, rfl, g1, g2, g3⟩
        · obtain ⟨h1, h2⟩ := op_run (Nat.le_refl _) ho g
          refine key ?_ ?_
          · simp [e, h1]
          · simpa [e] using h2
        · have a := operator_dashes (u := u) g4 g6
          have b := operator_dashes (u := v) g5 ((next_iff g8).1 g6)
          simp only [List.cons_append] at a b ⊢
          rw [a, b]
          exact .err
        · obtain ⟨h1, h2⟩ := op_run (Nat.le_refl _) ho (line g1 g2 g3 '-')
          refine key ?_ ?_
          · simp [e, h1]
          · simpa [e] using h2
      · obtain ⟨t, rfl, g⟩ := simple h (simple_op ho hc)
        obtain ⟨h1, h2⟩ := op_run (Nat.le_refl _) ho g
        refine key ?_ ?_
        · simp [e, h1]
        · simpa [e] using h2

theorem sign_minus (s : Str) : sign ('-' :: s) = .ok ['-'] s := rfl
theorem sign_plus (s : Str) : sign ('+' :: s) = .ok ['+'] s := rfl
theorem sign_none {s : Str} (h : Next (fun c => c ≠ '+' ∧ c ≠ '-') s) : sign s = .ok [] s := by
  cases s with
  | nil => rfl
  | cons c s =>
    obtain ⟨h1, h2⟩ := next_cons.1 h
    simp [sign, pmap_apply, opt_apply, alt_apply, char_cons_ne _ h1, char_cons_ne _ h2]

/-- A sign and then something that does not begin with a dash. -/
theorem e_sign {q : Str → Parser γ} {q' : Str → Parser δ} (hq : ∀ v, S K Q (q v) (q' v))
    (h1 : ∀ v x, q v ('-' :: x) = .err) (h2 : ∀ v x, q' v ('-' :: x) = .err) : S K Q (sign >>= q) (sign >>= q') :=
  fun s s' hs => by
  rw [bind_apply, bind_apply]
  obtain ⟨p, h⟩ := hs
  cases s with
  | nil => rw [nilL h]; exact hq _ _ _ ⟨p, .nil⟩
  | cons c s =>
    by_cases e : c = '-'
    · subst e
      rcases dash h with ⟨t, rfl, -, g⟩ | ⟨u, v, r, r', -, rfl, rfl, -⟩ | ⟨w, r, r', rfl, rfl, -⟩
      · rw [sign_minus, sign_minus]
        exact (hq _ _ _ ⟨_, g⟩).mono id ⟨['-'], rfl⟩ ⟨['-'], rfl⟩ (by simp)
      · simp only [List.cons_append]
        rw [sign_minus, sign_minus, andThen_ok, andThen_ok, h1, h2]; exact .err
      · simp only [List.cons_append]
        rw [sign_minus, sign_minus, andThen_ok, andThen_ok, h1, h2]; exact .err
    · by_cases e' : c = '+'
      · subst e'
        obtain ⟨t, rfl, g⟩ := simple h (by decide)
        rw [sign_plus, sign_plus]
        exact (hq _ _ _ ⟨_, g⟩).mono id ⟨['+'], rfl⟩ ⟨['+'], rfl⟩ (by simp)
      · obtain ⟨t, rfl⟩ := headL h
        rw [sign_none (next_cons.2 ⟨e', e⟩), sign_none (next_cons.2 ⟨e', e⟩)]
        exact hq _ _ _ ⟨_, h⟩

theorem e_float : E K float float :=
  e_sign (fun _ => e0 e_digit fun _ => e0 (e_char (by decide)) fun _ => e0 e_digit fun _ => s_pure rfl)
    (fun _ _ => rfl) (fun _ _ => rfl)
theorem e_integer : E K integer integer :=
  e_sign (fun _ => e0 e_digit fun _ => s_pure rfl) (fun _ _ => rfl) (fun _ _ => rfl)

/-! ### Strings and characters -/

theorem string_short {w r : Str} (hw : StringText w) (hr : w = [] → Next (· ≠ '"') r) :
    string ('"' :: w ++ '"' :: r) = .ok (.String w) r := by
  have h1 : multiString ('"' :: w ++ '"' :: r) = .err := multiString_err_of fun t e => by
    cases hw with
    | nil =>
      cases r with
      | nil => cases e
      | cons d r =>
        have := next_cons.1 (hr rfl)
        cases e
        exact this rfl
    | plain h => exact h (by have e := (List.cons.inj e).2; exact (List.cons.inj e).1)
    | escape => have e := (List.cons.inj e).2; exact absurd (List.cons.inj e).1 (by decide)
  unfold string
  rw [pmap_apply, alt_apply, h1, orElse_err, singleString_iff.2 ⟨rfl, hw⟩]
  rfl
theorem string_long {w r : Str} (hw : '"' ∉ w) :
    string ('"' :: '"' :: '"' :: w ++ '"' :: '"' :: '"' :: r) = .ok (.String w) r := by
  unfold string
  rw [pmap_apply, alt_apply, (multiString_iff (r := r)).2 ⟨by simp, hw⟩]
  rfl

theorem e_string : E K string string := fun s s' hs => by
  obtain ⟨p, h⟩ := hs
  cases s with
  | nil => rw [nilL h]; exact .err
  | cons c s =>
    by_cases e : c = '"'
    · subst e
      rcases quote h with ⟨w, r, r', rfl, rfl, h1, h2, h3⟩ | ⟨w, r, r', rfl, rfl, h1, h2⟩
      · have a := string_short (r := r) h1 h2
        have b := string_short (r := r') h1 fun e => (next_iff h3).1 (h2 e)
        rw [List.cons_append] at a
        rw [a, b]
        exact sm_ok rfl ⟨_, h3⟩ (u := '"' :: w ++ ['"']) (u' := '"' :: w ++ ['"']) (by simp) (by simp) (by simp) (by simp)
      · have a := string_long (r := r) h1
        have b := string_long (r := r') h1
        rw [List.cons_append] at a
        rw [a, b]
        exact sm_ok rfl ⟨_, h2⟩ (u := '"' :: '"' :: '"' :: w ++ c!"\"\"\"") (u' := '"' :: '"' :: '"' :: w ++ c!"\"\"\"")
          (by simp) (by simp) (by simp) (by simp)
    · obtain ⟨t, rfl⟩ := headL h
      rw [string_err e, string_err e]
      exact .err

theorem character_plain (c : Char) (r : Str) : character ('\'' :: c :: '\'' :: r) = .ok (.Character c) r := by
  have : hexChar (c :: '\'' :: r) = .err := by
    unfold hexChar
    rw [mapRes_apply, preceded_apply]
    have : tag c!"\\x" (c :: '\'' :: r) = .err := by
      simp [tag, stripPrefix]
    rw [this]
    rfl
  rw [Rn.character_apply]
  unfold characterContent
  rw [alt_apply, this]
  rfl
theorem character_hex (a b : Char) (r : Str) : character ('\'' :: '\\' :: 'x' :: a :: b :: '\'' :: r) =
    match fromHex [a, b] with
    | some v => .ok (.Character (Char.ofNat v)) r
    | none => .err := by
  rw [Rn.character_apply]
  unfold characterContent
  rw [alt_apply, Rn.hexChar_two]
  cases fromHex [a, b] <;> rfl

theorem e_character : E K character character := fun s s' hs => by
  obtain ⟨p, h⟩ := hs
  cases s with
  | nil => rw [nilL h]; exact .err
  | cons c s =>
    by_cases e : c = '\''
    · subst e
      rcases apostrophe h with ⟨c, r, r', rfl, rfl, g⟩ | ⟨a, b, r, r', rfl, rfl, g⟩
      · rw [character_plain, character_plain]
        exact sm_ok rfl ⟨_, g⟩ (u := ['\'', c, '\'']) (u' := ['\'', c, '\'']) rfl rfl (by simp) (by simp)
      · rw [character_hex, character_hex]
        cases fromHex [a, b] with
        | none => exact .err
        | some v =>
          exact sm_ok rfl ⟨_, g⟩ (u := ['\'', '\\', 'x', a, b, '\'']) (u' := ['\'', '\\', 'x', a, b, '\'']) rfl rfl
            (by simp) (by simp)
    · obtain ⟨t, rfl⟩ := headL h
      rw [character_err e, character_err e]
      exact .err

/-! ### Layout -/

/-- A gap, which may be empty. -/
structure D (s : Str) (ls : List Line) (last : Line) (r : Str) : Prop where
  split : s = gapText ls last ++ r
  lines : ∀ l ∈ ls, l.ok
  lastOk : last.ok
  stop : (last.comment = none ∧ NoGap r) ∨ (last.comment ≠ none ∧ r = [])

theorem line_none (k : Nat) : (⟨k, none⟩ : Line).ok := fun _ h => nomatch h

theorem d_stop {s : Str} (h : NoGap s) : D s [] ⟨0, none⟩ s :=
  ⟨rfl, by simp, line_none 0, .inl ⟨rfl, h⟩⟩

theorem d_sp (k : Nat) {s r : Str} {ls : List Line} {last : Line} (h : D s ls last r) :
    ∃ ls' last', D (sp k ++ s) ls' last' r ∧ (ls' = [] ↔ ls = []) ∧ last'.comment = last.comment ∧
      (ls ≠ [] → last' = last) ∧ (ls = [] → last'.spaces = k + last.spaces) := by
  have hsp : ∀ (n : Nat) (x : Str), sp k ++ (sp n ++ x) = sp (k + n) ++ x := by
    intro n x
    rw [sp, sp, sp, ← List.append_assoc, List.replicate_append_replicate]
  obtain ⟨rfl, h2, h3, h4⟩ := h
  cases ls with
  | nil =>
    refine ⟨[], ⟨k + last.spaces, last.comment⟩, ⟨?_, by simp, h3, h4⟩, by simp, rfl, by simp, fun _ => rfl⟩
    simp only [gapText, Line.text, List.append_assoc, hsp]
  | cons l ls =>
    refine ⟨⟨k + l.spaces, l.comment⟩ :: ls, last, ⟨?_, ?_, h3, h4⟩, by simp, rfl, fun _ => rfl, by simp⟩
    · simp only [gapText, Line.text, List.append_assoc, hsp]
    · intro x hx
      rcases List.mem_cons.1 hx with rfl | hx
      · exact h2 l (by simp)
      · exact h2 x (by simp [hx])

theorem d_newline {s r : Str} {ls : List Line} {last : Line} (h : D s ls last r) :
    D ('\n' :: s) (⟨0, none⟩ :: ls) last r := by
  obtain ⟨rfl, h2, h3, h4⟩ := h
  refine ⟨rfl, ?_, h3, h4⟩
  intro x hx
  rcases List.mem_cons.1 hx with rfl | hx
  · exact line_none 0
  · exact h2 x hx

theorem d_blank (ks : List Nat) {s r : Str} {ls : List Line} {last : Line} (h : D s ls last r) :
    ∃ ls', D ('\n' :: blankLines ks ++ s) ls' last r ∧ ls' ≠ [] := by
  induction ks with
  | nil => exact ⟨_, d_newline h, by simp⟩
  | cons k ks ih =>
    obtain ⟨l1, h1, h2⟩ := ih
    obtain ⟨l2, last2, g1, -, -, g4, -⟩ := d_sp k h1
    cases g4 h2
    refine ⟨⟨0, none⟩ :: l2, ?_, by simp⟩
    have := d_newline g1
    simpa [blankLines] using this

theorem d_comment {u s r : Str} {ls : List Line} {last : Line} (hu : '\n' ∉ u) (hs : Next (· = '\n') s)
    (h : D s ls last r) :
    (s = [] ∧ D ('-' :: '-' :: u ++ s) [] ⟨0, some u⟩ []) ∨ (ls ≠ [] ∧ ∃ ls', ls' ≠ [] ∧ D ('-' :: '-' :: u ++ s) ls' last r) := by
  cases s with
  | nil =>
    refine .inl ⟨rfl, by simp [gapText, Line.text, commentText, sp], by simp, ?_, .inr ⟨by simp, rfl⟩⟩
    rintro t ⟨⟩
    exact hu
  | cons c s =>
    cases next_cons.1 hs
    obtain ⟨h1, h2, h3, h4⟩ := h
    have lead : ∀ (l : Line) (x : Str), '\n' :: s = l.text ++ x → l.spaces = 0 ∧ l.comment = none ∧ x = '\n' :: s := by
      intro l x e
      obtain ⟨k, c⟩ := l
      simp only [Line.text] at e
      cases k with
      | succ k => cases e
      | zero =>
        cases c with
        | some c => cases e
        | none => exact ⟨rfl, rfl, e.symm⟩
    cases ls with
    | nil =>
      obtain ⟨-, e, rfl⟩ := lead last r h1
      rcases h4 with ⟨-, h4⟩ | ⟨h4, -⟩
      · exact absurd rfl (next_cons.1 h4.1).2
      · exact absurd e h4
    | cons l ls =>
      simp only [gapText, List.append_assoc] at h1
      obtain ⟨e1, e2, e3⟩ := lead l _ h1
      refine .inr ⟨by simp, ⟨0, some u⟩ :: ls, by simp, ⟨?_, ?_, h3, h4⟩⟩
      · simp only [gapText, Line.text, commentText, sp, List.replicate_zero, List.nil_append, List.append_assoc,
          List.cons_append]
        rw [← e3]
        simp
      · intro x hx
        rcases List.mem_cons.1 hx with rfl | hx
        · rintro t ⟨⟩
          exact hu
        · exact h2 x (by simp [hx])

/-- What alike texts have in common at a gap. -/
structure Gaps (K : Str → Str → Prop) (p : Char) (s t : Str) (ls : List Line) (last : Line) (r : Str) (ls' : List Line)
    (last' : Line) (r' : Str) : Prop where
  left : D s ls last r
  right : D t ls' last' r'
  same : ls = [] ↔ ls' = []
  comment : last.comment = none ↔ last'.comment = none
  column : ls ≠ [] → column last = column last'
  start : p = '\n' → ElmParser.Spec.column last = ElmParser.Spec.column last'
  rest : T K r r'

theorem gaps_stop {p : Char} {s t : Str} (h : Like K p s t) (h1 : NoGap s) (h2 : NoGap t) (q : Char) :
    ∃ ls last r ls' last' r', Gaps K q s t ls last r ls' last' r' :=
  ⟨_, _, _, _, _, _, d_stop h1, d_stop h2, by simp, by simp, fun _ => rfl, fun _ => rfl, p, h⟩

theorem gaps_comment {p : Char} {u v s t : Str} (hu : '\n' ∉ u) (hv : '\n' ∉ v) (hs : Next (· = '\n') s) (h : Like K p s t)
    (ih : ∃ ls last r ls' last' r', Gaps K p s t ls last r ls' last' r') (q : Char) :
    ∃ ls last r ls' last' r', Gaps K q ('-' :: '-' :: u ++ s) ('-' :: '-' :: v ++ t) ls last r ls' last' r' := by
  obtain ⟨ls, last, r, ls', last', r', g1, g2, g3, g4, g5, g6, g7⟩ := ih
  rcases d_comment hu hs g1 with ⟨rfl, a⟩ | ⟨a0, l1, a1, a2⟩
  · cases nilL h
    rcases d_comment hv (next_nil _) g2 with ⟨-, b⟩ | ⟨b, -⟩
    · exact ⟨_, _, _, _, _, _, a, b, by simp, by simp, fun _ => rfl, fun _ => rfl, p, .nil⟩
    · have := g2.split
      cases ls' with
      | nil => exact absurd rfl b
      | cons l ls' => simp [gapText] at this
  · rcases d_comment hv ((next_iff h).1 hs) g2 with ⟨rfl, b⟩ | ⟨b0, l2, b1, b2⟩
    · cases nilR h
      have := g1.split
      cases ls with
      | nil => exact absurd rfl a0
      | cons l ls => simp [gapText] at this
    · exact ⟨_, _, _, _, _, _, a2, b2, by simp [a1, b1], g4, fun _ => g5 a0, fun _ => g5 a0, g7⟩

theorem like_gaps {p : Char} {s t : Str} (h : Like K p s t) :
    ∃ ls last r ls' last' r', Gaps K p s t ls last r ls' last' r' := by
  have stop : ∀ {p c : Char} {x y : Str}, c ≠ ' ' → c ≠ '\n' → (c = '-' → Next (· ≠ '-') x) → Like K p (c :: x) (c :: y) →
      (c = '-' → Next (· ≠ '-') y) → ∃ ls last r ls' last' r', Gaps K p (c :: x) (c :: y) ls last r ls' last' r' := by
    intro p c x y h1 h2 h3 h h4
    have : ∀ {x : Str}, (c = '-' → Next (· ≠ '-') x) → NoGap (c :: x) := by
      intro x h3
      refine ⟨next_cons.2 ⟨h1, h2⟩, ?_⟩
      rintro t e
      obtain ⟨rfl, rfl⟩ := List.cons.inj e
      exact next_cons.1 (h3 rfl) rfl
    exact gaps_stop h (this h3) (this h4) p
  have spaced : ∀ {p q : Char} {s t : Str} (k k' : Nat), (∃ ls last r ls' last' r', Gaps K q s t ls last r ls' last' r') →
      (p = '\n' → q = '\n' ∧ k = k') →
      ∃ ls last r ls' last' r', Gaps K p (sp k ++ s) (sp k' ++ t) ls last r ls' last' r' := by
    rintro p q s t k k' ⟨ls, last, r, ls', last', r', g1, g2, g3, g4, g5, g6, g7⟩ hp
    obtain ⟨l1, last1, a1, a2, a3, a4, a5⟩ := d_sp k g1
    obtain ⟨l2, last2, b1, b2, b3, b4, b5⟩ := d_sp k' g2
    refine ⟨_, _, _, _, _, _, a1, b1, by rw [a2, b2, g3], by rw [a3, b3, g4], fun h => ?_, fun h => ?_, g7⟩
    · have h : ls ≠ [] := by rwa [Ne, a2] at h
      rw [a4 h, b4 (by rwa [Ne, ← g3]), g5 h]
    · obtain ⟨h, rfl⟩ := hp h
      have h := g6 h
      by_cases e : ls = []
      · have a := a5 e
        have b := b5 (g3.1 e)
        unfold column at h ⊢
        rw [a3, b3, a, b]
        simp only [g4] at h ⊢
        split
        · next e => rw [if_pos e, if_pos e] at h; rw [h]
        · rfl
      · rw [a4 e, b4 (by rwa [Ne, ← g3]), h]
  induction h with
  | @nil p => exact gaps_stop (p := p) .nil noGap_nil noGap_nil p
  | @char p c s t h1 h2 h3 h4 ih =>
    by_cases e : c = ' '
    · subst e
      refine spaced (q := seen p ' ') 1 1 ih ?_
      rintro rfl
      exact ⟨rfl, rfl⟩
    · by_cases e' : c = '\n'
      · subst e'
        rw [seen_ne (by decide)] at ih
        obtain ⟨ls, last, r, ls', last', r', g1, g2, g3, g4, g5, g6, g7⟩ := ih
        exact ⟨_, _, _, _, _, _, d_newline g1, d_newline g2, by simp, g4, fun _ => g6 rfl, fun _ => g6 rfl, g7⟩
      · exact stop e e' (fun e => h3 (.inl e)) (.char h1 h2 h3 h4) fun e => (next_iff h4).1 (h3 (.inl e))
  | spaces h1 h2 ih =>
    refine spaced _ _ ih ?_
    rintro rfl
    exact absurd (.inl rfl) h1
  | blank h ih =>
    obtain ⟨ls, last, r, ls', last', r', g1, g2, g3, g4, g5, g6, g7⟩ := ih
    obtain ⟨l1, a1, a2⟩ := d_blank _ g1
    obtain ⟨l2, b1, b2⟩ := d_blank _ g2
    exact ⟨_, _, _, _, _, _, a1, b1, by simp [a2, b2], g4, fun _ => g6 rfl, fun _ => g6 rfl, g7⟩
  | comment h1 h2 h3 h4 h5 h6 h7 h8 ih => exact gaps_comment h2 h3 h6 h8 ih _
  | dashes h1 h2 h3 ih =>
    have : '\n' ∉ _ := fun h => (h1 _ h).2.2.1 rfl
    exact gaps_comment this this h2 h3 ih _
  | block h1 h2 h3 h4 h5 h6 h7 h8 =>
    exact stop (by decide) (by decide) (by simp) (.block h1 h2 h3 h4 h5 h6 h7 h8) (by simp)
  | string h1 h2 h3 => exact stop (by decide) (by decide) (by simp) (.string h1 h2 h3) (by simp)
  | longString h1 h2 => exact stop (by decide) (by decide) (by simp) (.longString h1 h2) (by simp)
  | character h1 => exact stop (by decide) (by decide) (by simp) (.character h1) (by simp)
  | hexadecimal h1 => exact stop (by decide) (by decide) (by simp) (.hexadecimal h1) (by simp)

theorem noGap_like {p : Char} {s t : Str} (h : Like K p s t) (hs : NoGap s) : NoGap t := by
  refine ⟨(next_iff h).1 hs.1, ?_⟩
  rintro x rfl
  cases s with
  | nil => cases nilL h
  | cons c s =>
    obtain ⟨t, e⟩ := headL h
    obtain ⟨rfl, rfl⟩ := List.cons.inj e
    rcases dash h with ⟨t, e, h1, h2⟩ | ⟨u, v, r, r', -, rfl, -⟩ | ⟨w, r, r', rfl, -⟩
    · cases e
      exact next_cons.1 ((next_iff h2).1 h1) rfl
    · exact hs.2 _ rfl
    · exact hs.2 _ rfl

theorem symm' {p : Char} {s t : Str} (h : Like K p s t) : Like (fun u v => K v u) p t s := by
  induction h with
  | nil => exact .nil
  | char h1 h2 h3 h4 ih => exact .char h1 h2 (fun e => (next_iff h4).1 (h3 e)) ih
  | spaces h1 h2 ih => exact .spaces h1 ih
  | blank h ih => exact .blank ih
  | comment h1 h2 h3 h4 h5 h6 h7 h8 ih => exact .comment h1 h3 h2 h5 h4 ((next_iff h8).1 h6) h7 ih
  | dashes h1 h2 h3 ih => exact .dashes h1 ((next_iff h3).1 h2) ih
  | block h1 h2 h3 h4 h5 h6 h7 h8 ih => exact .block h2 h1 h4 h3 h6 h5 h7 ih
  | string h1 h2 h3 ih => exact .string h1 (fun e => (next_iff h3).1 (h2 e)) ih
  | longString h1 h2 ih => exact .longString h1 ih
  | character h1 ih => exact .character ih
  | hexadecimal h1 ih => exact .hexadecimal ih

theorem gap_of_d {s r : Str} {ls : List Line} {last : Line} (h : D s ls last r) (hs : ¬ NoGap s) : Gap s ls last r := by
  obtain ⟨h1, h2, h3, h4⟩ := h
  refine ⟨h1, fun e => hs ?_, h2, h3, h4⟩
  rw [e, List.nil_append] at h1
  subst h1
  rcases h4 with ⟨-, h⟩ | ⟨-, rfl⟩
  · exact h
  · exact noGap_nil

theorem e_gap (ind : Nat) (ir : IR) : E K (gap ind ir) (gap ind ir) := fun s s' ⟨p, h⟩ => by
  by_cases hs : NoGap s
  · rw [gap_none hs, gap_none (noGap_like h hs)]; exact .err
  have hs' : ¬ NoGap s' := fun h' => hs (noGap_like (symm' h) h')
  obtain ⟨ls, last, r, ls', last', r', g1, g2, g3, g4, g5, g6, g7⟩ := like_gaps h
  have k1 := gap_of_d g1 hs
  have k2 := gap_of_d g2 hs'
  have key : ∀ i, ((ls = [] ∧ i = if last.comment = none then ind else 0) ∨
        (ls ≠ [] ∧ i = column last % 4294967296 ∧ Rel ir (column last % 4294967296) ind)) ↔
      ((ls' = [] ∧ i = if last'.comment = none then ind else 0) ∨
        (ls' ≠ [] ∧ i = column last' % 4294967296 ∧ Rel ir (column last' % 4294967296) ind)) := by
    intro i
    by_cases e : ls = []
    · simp [e, g3.1 e, g4]
    · have e' : ls' ≠ [] := by rwa [Ne, ← g3]
      rw [g5 e]
      simp [e, e']
  rcases err_or_ok (fun k => cons_gap k ind ir) s with e | ⟨v, q, e, -⟩
  · rcases err_or_ok (fun k => cons_gap k ind ir) s' with e' | ⟨v, q, e', -⟩
    · rw [e, e']; exact .err
    · obtain ⟨rfl, e'⟩ := (gap_of_gap k2 ind ir).1 e'
      rw [(gap_of_gap k1 ind ir).2 ⟨rfl, (key v).2 e'⟩] at e
      cases e
  · obtain ⟨rfl, e1⟩ := (gap_of_gap k1 ind ir).1 e
    have e' := (gap_of_gap k2 ind ir).2 ⟨rfl, (key v).1 e1⟩
    rw [e, e']
    exact sm_ok rfl g7 k1.split k2.split k1.nonempty k2.nonempty
theorem e_optGap (ind : Nat) (ir : IR) : E K (optGap ind ir) (optGap ind ir) := e_pmap _ (e_opt (e_gap ind ir))

/-- A line end and the indentation of the next line, where no blank lines begin. -/
theorem e_lineEnd (ind : Nat) {s t : Str} (h : Like K '\n' s t) {x y : Str} (hx : x = '\n' :: s) (hy : y = '\n' :: t) :
    Sm K Eq x y (newLineAndSameIndent ind x) (newLineAndSameIndent ind y) := by
  have same : ∀ {s t : Str}, Like K '\n' s t → ∃ n r r', s = sp n ++ r ∧ t = sp n ++ r' ∧ Next (· ≠ ' ') r ∧ Like K '\n' r r' := by
    intro s
    induction s with
    | nil => intro t h; cases nilL h; exact ⟨0, [], [], rfl, rfl, next_nil _, h⟩
    | cons c s ih =>
      intro t h
      by_cases e : c = ' '
      · subst e
        obtain ⟨t, rfl, g⟩ := space h (.inl rfl)
        obtain ⟨n, r, r', rfl, rfl, g1, g2⟩ := ih g
        exact ⟨n + 1, r, r', rfl, rfl, g1, g2⟩
      · exact ⟨0, _, _, rfl, rfl, next_cons.2 e, h⟩
  obtain ⟨n, r, r', rfl, rfl, g1, g2⟩ := same h
  subst hx hy
  have key : ∀ {r : Str}, Next (· ≠ ' ') r → newLineAndSameIndent ind ('\n' :: (sp n ++ r)) =
      if asU32 n == ind then .ok (asU32 n) r else .err := by
    intro r hr
    unfold newLineAndSameIndent
    rw [mapRes_apply, preceded_apply, char_cons, andThen_ok, pmap_apply, spaces0_sp hr, andThen_ok, andThen_ok]
    have : (sp n).length = n := by simp [sp]
    rw [this]
    cases asU32 n == ind <;> rfl
  rw [key g1, key ((next_iff g2).1 g1)]
  split
  · exact sm_ok rfl ⟨_, g2⟩ (u := '\n' :: sp n) (u' := '\n' :: sp n) rfl rfl (by simp) (by simp)
  · exact .err

end Lk
end ElmParser
