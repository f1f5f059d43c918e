import Verif.Proofs.TermChoice
import Verif.Proofs.StmtChoice

/-! # C66: where the order of the alternatives of an `alt!` matters

`alt!` takes the first alternative that does not fail, so moving an alternative up or down is, in
general, a change of the grammar.  The theorems below say exactly which moves are harmless.  The
alternatives are numbered from 0 in the order of the source, `σ` is any order of these numbers,
`reorder σ l` is the list of alternatives in that order, and `choice` answers as the first
alternative that does not fail.  `[i, j].Sublist σ` says that `i` comes before `j` in `σ`. -/
namespace ElmParser
open Spec

variable {σ : List Nat}

/-- The positions `i < j` of a list of alternatives that may both answer on a text are among
`pairs`, if `kinds` lists for every alternative the kinds of texts on which it may answer. -/
theorem pair_of_kinds {α : Type} {l : List (Parser α)} {s : Str} (kinds : List (List Nat)) (κ : Nat)
    (pairs : List (Nat × Nat))
    (hk : ∀ (i : Nat) (p : Parser α), l[i]? = some p → p s ≠ .err → κ ∈ kinds[i]?.getD [])
    (ht : ((List.range kinds.length).all fun j => (List.range j).all fun i => (kinds[i]?.getD []).all fun k =>
      !(kinds[j]?.getD []).contains k || pairs.contains (i, j)) = true)
    {i j : Nat} {p q : Parser α} (hij : i < j) (hi : l[i]? = some p) (hj : l[j]? = some q) (hp : p s ≠ .err)
    (hq : q s ≠ .err) : (i, j) ∈ pairs := by
  have h1 := hk i p hi hp
  have h2 := hk j q hj hq
  have : j < kinds.length := by
    apply Classical.byContradiction
    intro h
    rw [List.getElem?_eq_none (by omega)] at h2
    cases h2
  simp only [List.all_eq_true, List.mem_range, Bool.or_eq_true, Bool.not_eq_true', List.contains_eq_mem,
    decide_eq_true_eq, decide_eq_false_iff_not] at ht
  exact (ht j this i hij κ h1).resolve_left fun h => h h2

/-! ## `term` -/

/-- src/ast/expression/mod.rs:153-169: the alternatives of `term`. -/
def termAlternatives (ind : Nat) : List (Parser Expr) :=
  [access, variableP, accessFunction, string, float, integer, character, parens expression ind, list expression ind,
    tuple expression ind, recordUpdate expression ind, record expression ind, simplifiedRecord]

theorem term_choice (ind : Nat) : choice (termAlternatives ind) = term ind := by
  simp only [termAlternatives, choice_alt]
  funext s
  show _ = termF expression ind s
  unfold termF
  simp only [alt_apply]
  rw [show choice ([] : List (Parser Expr)) = fun _ => .err from rfl]
  simp only [orElse_err_right]

/-- The kind of a text as far as `term` is concerned, by its first character. -/
def termCharKind (c : Char) : Nat :=
  if Lower c ∨ Upper c ∨ c = '_' then 0 else if c = '(' then 1 else if c = '.' then 2 else if c = '"' then 3
  else if Digit c ∨ c = '+' ∨ c = '-' then 4 else if c = '\'' then 5 else if c = '[' then 6
  else if c = '{' then 7 else 8

def termKind (s : Str) : Nat := (s.head?.map termCharKind).getD 8

def termKinds : List (List Nat) := [[0, 1], [0, 1], [2], [3], [4], [4], [5], [1], [6], [1], [7], [7], [7]]

theorem term_kinds (ind : Nat) (s : Str) (i : Nat) (p : Parser Expr) (hi : (termAlternatives ind)[i]? = some p)
    (hp : p s ≠ .err) : termKind s ∈ termKinds[i]?.getD [] := by
  have hv : ∀ {c t}, variableP (c :: t) ≠ .err → termKind (c :: t) ∈ [0, 1] := by
    intro c t h
    by_cases h1 : Lower c ∨ Upper c ∨ c = '_'
    · simp [termKind, termCharKind, h1]
    · by_cases h2 : c = '('
      · subst h2
        show termCharKind '(' ∈ [0, 1]
        decide
      · exfalso
        simp only [not_or] at h1
        exact h (variableP_err h1.1 h1.2.1 (by simp [h1.2.2, h2]))
  have hd : ∀ {c t d k}, termKind (d :: t) = k → (c ≠ d → p (c :: t) = .err) → p (c :: t) ≠ .err →
      termKind (c :: t) ∈ [k] := by
    intro c t d k hk h1 h2
    by_cases e : c = d
    · subst e; rw [hk]; simp
    · exact absurd (h1 e) h2
  have hn : ∀ {c : Char} {t : Str}, (float (c :: t) ≠ .err ∨ integer (c :: t) ≠ .err) → termKind (c :: t) = 4 := by
    intro c t h
    have hc : Digit c ∨ c = '+' ∨ c = '-' := by
      apply Classical.byContradiction
      intro hc
      simp only [not_or] at hc
      have := number_err_head (t := t) hc.1 hc.2.1 hc.2.2
      rcases h with h | h
      · exact h this.1
      · exact h this.2
    have hne : ∀ x ∈ ['_', '(', '.', '"'], c ≠ x := by
      rintro x hx rfl
      simp only [List.mem_cons, List.not_mem_nil, or_false] at hx
      rcases hx with rfl | rfl | rfl | rfl <;> revert hc <;> decide
    have hl : ¬ (Lower c ∨ Upper c ∨ c = '_') := by
      rintro (h | h | rfl)
      · rcases hc with hc | rfl | rfl
        · exact (by revert hc h; unfold Lower Digit; omega)
        · revert h; decide
        · revert h; decide
      · rcases hc with hc | rfl | rfl
        · exact (by revert hc h; unfold Upper Digit; omega)
        · revert h; decide
        · revert h; decide
      · revert hc; decide
    simp [termKind, termCharKind, hl, hc, hne '(' (by simp), hne '.' (by simp), hne '"' (by simp)]
  match i, hi with
  | 0, hi =>
    cases hi
    cases s with
    | nil => exact absurd rfl hp
    | cons c t => exact hv fun h => hp (access_err_of_variable h)
  | 1, hi =>
    cases hi
    cases s with
    | nil => exact absurd rfl hp
    | cons c t => exact hv hp
  | 2, hi =>
    cases hi
    cases s with
    | nil => exact absurd rfl hp
    | cons c t => exact hd rfl accessFunction_err hp
  | 3, hi =>
    cases hi
    cases s with
    | nil => exact absurd rfl hp
    | cons c t => exact hd rfl string_err hp
  | 4, hi =>
    cases hi
    cases s with
    | nil => exact absurd rfl hp
    | cons c t => rw [hn (.inl hp)]; decide
  | 5, hi =>
    cases hi
    cases s with
    | nil => exact absurd rfl hp
    | cons c t => rw [hn (.inr hp)]; decide
  | 6, hi =>
    cases hi
    cases s with
    | nil => exact absurd rfl hp
    | cons c t => exact hd rfl character_err hp
  | 7, hi =>
    cases hi
    cases s with
    | nil => exact absurd rfl hp
    | cons c t => exact hd rfl parens_err hp
  | 8, hi =>
    cases hi
    cases s with
    | nil => exact absurd rfl hp
    | cons c t => exact hd rfl list_err hp
  | 9, hi =>
    cases hi
    cases s with
    | nil => exact absurd rfl hp
    | cons c t => exact hd rfl tuple_err hp
  | 10, hi =>
    cases hi
    cases s with
    | nil => exact absurd rfl hp
    | cons c t => exact hd rfl recordUpdate_err hp
  | 11, hi =>
    cases hi
    cases s with
    | nil => exact absurd rfl hp
    | cons c t => exact hd rfl record_err hp
  | 12, hi =>
    cases hi
    cases s with
    | nil => exact absurd rfl hp
    | cons c t => exact hd rfl simplifiedRecord_err hp
  | n + 13, hi => simp [termAlternatives] at hi

/-- C66: the thirteen alternatives of `term` may be put in any order in which field access comes
before variables, floats before integers, and parentheses before tuples; in no other order is the
parser the same. -/
theorem C66_term (ind : Nat) (hσ : σ.Perm (List.range 13)) :
    choice (reorder σ (termAlternatives ind)) = term ind ↔
      [0, 1].Sublist σ ∧ [4, 5].Sublist σ ∧ [7, 9].Sublist σ := by
  have hE := @cons_expression
  constructor
  · intro h
    rw [← term_choice] at h
    refine ⟨?_, ?_, ?_⟩
    · refine order_needed (s := c!"x.y") hσ (p := access) (q := variableP) rfl rfl (by intro e; cases e)
        (by intro e; cases e) (by intro e; cases e) ?_ (congrFun h _)
      intro k x hk hx
      have := term_kinds ind _ k x hk hx
      match k, this with
      | 0, _ => exact .inl rfl
      | 1, _ => exact .inr rfl
      | n + 13, h => simp [termKinds] at h
    · refine order_needed (s := c!"1.5") hσ (p := float) (q := integer) rfl rfl (by intro e; cases e)
        (by intro e; cases e) (by intro e; cases e) ?_ (congrFun h _)
      intro k x hk hx
      have := term_kinds ind _ k x hk hx
      match k, this with
      | 4, _ => exact .inl rfl
      | 5, _ => exact .inr rfl
      | n + 13, h => simp [termKinds] at h
    · refine order_needed (s := c!"(a)") hσ (p := parens expression ind) (q := tuple expression ind) rfl rfl
        (by intro e; cases e) (by intro e; cases e) (by intro e; cases e) ?_ (congrFun h _)
      intro k x hk hx
      have := term_kinds ind _ k x hk hx
      match k, this, hk with
      | 0, _, hk => cases hk; exact absurd rfl hx
      | 1, _, hk => cases hk; exact absurd rfl hx
      | 7, _, _ => exact .inl rfl
      | 9, _, _ => exact .inr rfl
      | n + 13, h, _ => simp [termKinds] at h
  · rintro ⟨h01, h45, h79⟩
    rw [← term_choice]
    funext s
    refine choice_reorder hσ s fun i j p q hij hi hj hp hq => ?_
    have hm := pair_of_kinds termKinds _ [(0, 1), (0, 7), (0, 9), (1, 7), (1, 9), (4, 5), (7, 9), (10, 11), (10, 12),
      (11, 12)] (term_kinds ind s) (by decide) hij hi hj hp hq
    have hvar : ∀ {x : Expr} {t : Str}, parens expression ind s = .ok x t ∨ tuple expression ind s = .ok x t →
        variableP s = .err := by
      rintro x t (h | h)
      · exact parens_not_variable h
      · exact tuple_not_variable h
    have cp : parens expression ind s ≠ .err → variableP s = .err := fun h => by
      obtain ⟨v, t, e⟩ := ok_of_ne (fun k => (cons_parens (fun i => (hE k i).good) ind).mono (Nat.le_succ k)) h
      exact hvar (.inl e)
    have ct : tuple expression ind s ≠ .err → variableP s = .err := fun h => by
      obtain ⟨v, t, e⟩ := ok_of_ne (fun k => (cons_tuple (fun i => (hE k i).good) ind).mono (Nat.le_succ k)) h
      exact hvar (.inr e)
    have cu : recordUpdate expression ind s ≠ .err → ∃ v t, recordUpdate expression ind s = .ok v t :=
      ok_of_ne (fun k => (cons_recordUpdate (fun i => (hE k i).good) ind).mono (Nat.le_succ k))
    have cr : record expression ind s ≠ .err → ∃ v t, record expression ind s = .ok v t :=
      ok_of_ne (fun k => (cons_record (fun i => (hE k i).good) ind).mono (Nat.le_succ k))
    have cs : simplifiedRecord s ≠ .err → ∃ v t, simplifiedRecord s = .ok v t := ok_of_ne cons_simplifiedRecord
    simp only [List.mem_cons, List.not_mem_nil, or_false, Prod.mk.injEq] at hm
    rcases hm with ⟨rfl, rfl⟩ | ⟨rfl, rfl⟩ | ⟨rfl, rfl⟩ | ⟨rfl, rfl⟩ | ⟨rfl, rfl⟩ | ⟨rfl, rfl⟩ | ⟨rfl, rfl⟩ |
      ⟨rfl, rfl⟩ | ⟨rfl, rfl⟩ | ⟨rfl, rfl⟩ <;> cases hi <;> cases hj
    · exact .inr h01
    · exact absurd (access_err_of_variable (cp hq)) hp
    · exact absurd (access_err_of_variable (ct hq)) hp
    · exact absurd (cp hq) hp
    · exact absurd (ct hq) hp
    · exact .inr h45
    · exact .inr h79
    · obtain ⟨v, t, e⟩ := cu hp
      exact absurd (update_not_record e) hq
    · obtain ⟨v, t, e⟩ := cu hp
      exact absurd (update_not_simplified e) hq
    · obtain ⟨v, t, e⟩ := cr hp
      obtain ⟨v', t', e'⟩ := cs hq
      obtain ⟨rfl, rfl⟩ := record_simplified e e'
      rw [e, e']
      exact .inl rfl

/-- The condition is met by an order that is not that of the source: records first, access and
variables last. -/
example : choice (reorder [11, 12, 10, 4, 3, 5, 7, 8, 9, 6, 2, 0, 1] (termAlternatives 0)) = term 0 :=
  (C66_term 0 (by decide)).2 (by decide)

/-- Tuples before parentheses: `(a)` becomes a tuple. -/
example : choice (reorder [0, 1, 2, 3, 4, 5, 6, 9, 8, 7, 10, 11, 12] (termAlternatives 0)) ≠ term 0 :=
  fun h => absurd ((C66_term 0 (by decide)).1 h) (by decide)

/-! ## `expression` -/

/-- src/ast/expression/mod.rs:343-351: the alternatives of `expression`. -/
def expressionAlternatives (ind : Nat) : List (Parser Expr) :=
  [binary expression ind, letExpression expression ind, caseExpression expression ind, ifExpression expression ind,
    lambda expression ind]

theorem expression_choice (ind : Nat) : choice (expressionAlternatives ind) = expression ind := by
  rw [expression_unfold ind]
  simp only [expressionAlternatives, choice_alt]
  funext s
  unfold expressionF
  simp only [alt_apply]
  rw [show choice ([] : List (Parser Expr)) = fun _ => .err from rfl]
  simp only [orElse_err_right]

def expressionKind (s : Str) : Nat :=
  if s.head? = some 'l' then 0 else if s.head? = some 'c' then 1 else if s.head? = some 'i' then 2
  else if s.head? = some '\\' then 3 else 4

theorem tag_ne_head {d : Char} {k s : Str} {α : Type} {f : Str → Parser α} (h : (tag (d :: k) >>= f) s ≠ .err) :
    s.head? = some d := by
  cases s with
  | nil => exact absurd rfl h
  | cons c t =>
    by_cases e : c = d
    · rw [e]; rfl
    · rw [bind_apply, tag_cons_ne e] at h
      exact absurd rfl h

/-- A text with a keyword and a gap is no term. -/
theorem keyword_binary {k s : Str} {ind i : Nat} {ir : IR} {α : Type} {f : Nat → Parser α} (hk : k ∈ keywords)
    (h : (tag k >>= fun _ => gap ind ir >>= f) s ≠ .err) : binary expression i s = .err := by
  refine binary_err ?_
  rw [bind_apply] at h
  rcases e : tag k s with ⟨v, t⟩ | _ | _ | _
  · rw [e, andThen_ok, bind_apply] at h
    obtain ⟨-, rfl⟩ := tag_eq_ok.1 e
    rcases err_or_ok (fun k => cons_gap k ind ir) t with e' | ⟨j, u, e', -⟩
    · rw [e'] at h; exact absurd rfl h
    · exact termF_keyword hk (gap_next e')
  · rw [e] at h; exact absurd rfl h
  · have := cons_tag (s.length + 1)
    obtain ⟨c, cs, rfl, -⟩ := keyword_lower hk
    rcases err_or_ok (fun j => cons_tag j c cs) s with e' | ⟨v, u, e', -⟩ <;> rw [e'] at e <;> cases e
  · obtain ⟨c, cs, rfl, -⟩ := keyword_lower hk
    rcases err_or_ok (fun j => cons_tag j c cs) s with e' | ⟨v, u, e', -⟩ <;> rw [e'] at e <;> cases e

theorem expression_kinds (ind : Nat) (s : Str) (i : Nat) (p : Parser Expr)
    (hi : (expressionAlternatives ind)[i]? = some p) (hp : p s ≠ .err) :
    expressionKind s ∈ ([[0, 1, 2, 3, 4], [0], [1], [2], [3]] : List (List Nat))[i]?.getD [] := by
  match i, hi with
  | 0, hi =>
    show _ ∈ [0, 1, 2, 3, 4]
    unfold expressionKind
    repeat' split
    all_goals decide
  | 1, hi =>
    cases hi
    unfold letExpression at hp
    unfold expressionKind
    rw [tag_ne_head hp]; decide
  | 2, hi =>
    cases hi
    unfold caseExpression at hp
    unfold expressionKind
    rw [tag_ne_head hp]; decide
  | 3, hi =>
    cases hi
    unfold ifExpression at hp
    unfold expressionKind
    rw [tag_ne_head hp]; decide
  | 4, hi =>
    cases hi
    cases s with
    | nil => exact absurd rfl hp
    | cons c t =>
      by_cases e : c = '\\'
      · subst e; exact (by decide : (3 : Nat) ∈ [3])
      · exact absurd (lambda_err (char_cons_ne _ e)) hp
  | n + 5, hi => simp [expressionAlternatives] at hi

/-- C66: the five alternatives of `expression` may be put in any order. -/
theorem C66_expression (ind : Nat) (hσ : σ.Perm (List.range 5)) :
    choice (reorder σ (expressionAlternatives ind)) = expression ind := by
  rw [← expression_choice]
  funext s
  refine choice_reorder hσ s fun i j p q hij hi hj hp hq => ?_
  have hm := pair_of_kinds [[0, 1, 2, 3, 4], [0], [1], [2], [3]] _ [(0, 1), (0, 2), (0, 3), (0, 4)]
    (expression_kinds ind s) (by decide) hij hi hj hp hq
  simp only [List.mem_cons, List.not_mem_nil, or_false, Prod.mk.injEq] at hm
  rcases hm with ⟨rfl, rfl⟩ | ⟨rfl, rfl⟩ | ⟨rfl, rfl⟩ | ⟨rfl, rfl⟩ <;> cases hi <;> cases hj
  · exact absurd (keyword_binary (by decide) hq) hp
  · exact absurd (keyword_binary (by decide) hq) hp
  · exact absurd (keyword_binary (by decide) hq) hp
  · cases s with
    | nil => exact absurd rfl hq
    | cons c t =>
      by_cases e : c = '\\'
      · subst e
        exact absurd (binary_err (termF_err_head (by decide))) hp
      · exact absurd (lambda_err (char_cons_ne _ e)) hq

example : choice (reorder [4, 3, 2, 1, 0] (expressionAlternatives 0)) c!"if x then \\y -> 1 else 2" =
    .ok (.If (.Variable [c!"x"]) (.Lambda [.Variable [c!"y"]] (.Integer c!"1")) (.Integer c!"2")) [] := by
  rw [C66_expression 0 (by decide)]; rfl

/-! ## `let` entries -/

/-- src/ast/expression/mod.rs:212-219: the alternatives of `let_binding_target`. -/
def targetAlternatives (ind : Nat) : List (Parser Expr) :=
  [variableP, list expression ind, tuple expression ind, simplifiedRecord]

/-- src/ast/expression/mod.rs:235-238: the alternatives of one entry of a `let`. -/
def entryAlternatives (ind : Nat) : List (Parser LetEntry) :=
  [letBinding expression ind, pmap (functionF expression ind) .LetFunction]

theorem target_choice (ind : Nat) : choice (targetAlternatives ind) = letBindingTarget expression ind := by
  simp only [targetAlternatives, choice_alt]
  funext s
  unfold letBindingTarget
  simp only [alt_apply]
  rw [show choice ([] : List (Parser Expr)) = fun _ => .err from rfl]
  simp only [orElse_err_right]

theorem target_kinds (ind : Nat) (s : Str) (i : Nat) (p : Parser Expr)
    (hi : (targetAlternatives ind)[i]? = some p) (hp : p s ≠ .err) :
    termKind s ∈ ([[0, 1], [6], [1], [7]] : List (List Nat))[i]?.getD [] := by
  match i, hi with
  | 0, hi => cases hi; exact term_kinds ind s 1 _ rfl hp
  | 1, hi => cases hi; exact term_kinds ind s 8 _ rfl hp
  | 2, hi => cases hi; exact term_kinds ind s 9 _ rfl hp
  | 3, hi => cases hi; exact term_kinds ind s 12 _ rfl hp
  | n + 4, hi => simp [targetAlternatives] at hi

/-- C66: the four alternatives for what a `let` binds may be put in any order. -/
theorem C66_target (ind : Nat) (hσ : σ.Perm (List.range 4)) :
    choice (reorder σ (targetAlternatives ind)) = letBindingTarget expression ind := by
  rw [← target_choice]
  funext s
  refine choice_reorder hσ s fun i j p q hij hi hj hp hq => ?_
  have hm := pair_of_kinds [[0, 1], [6], [1], [7]] _ [(0, 2)] (target_kinds ind s) (by decide) hij hi hj hp hq
  simp only [List.mem_cons, List.not_mem_nil, or_false, Prod.mk.injEq] at hm
  obtain ⟨rfl, rfl⟩ := hm
  cases hi
  cases hj
  obtain ⟨v, t, e⟩ := ok_of_ne
    (fun k => (cons_tuple (fun i => (cons_expression k i).good) ind).mono (Nat.le_succ k)) hq
  exact absurd (tuple_not_variable e) hp

/-- C66: bindings have to come before functions. -/
theorem C66_entry (ind : Nat) (hσ : σ.Perm (List.range 2)) :
    choice (reorder σ (entryAlternatives ind)) = letEntry expression ind ↔ [0, 1].Sublist σ := by
  have hc : choice (entryAlternatives ind) = letEntry expression ind := by
    simp only [entryAlternatives, choice_alt]
    funext s
    unfold letEntry
    simp only [alt_apply]
    rw [show choice ([] : List (Parser LetEntry)) = fun _ => .err from rfl]
    simp only [orElse_err_right]
  rw [← hc]
  constructor
  · intro h
    refine order_needed (s := c!"x = 3") hσ (p := letBinding expression ind) (q := pmap (functionF expression ind) .LetFunction)
      rfl rfl (by intro e; cases e) (by intro e; cases e) (by intro e; cases e) ?_ (congrFun h _)
    intro k x hk _
    match k, hk with
    | 0, _ => exact .inl rfl
    | 1, _ => exact .inr rfl
    | n + 2, hk => simp [entryAlternatives] at hk
  · intro h
    funext s
    refine choice_reorder hσ s fun i j p q hij hi hj hp hq => .inr ?_
    have hj' : j < 2 := (List.getElem?_eq_some_iff.1 hj).1
    have : i = 0 ∧ j = 1 := by omega
    rw [this.1, this.2]
    exact h

example : choice (reorder [3, 2, 1, 0] (targetAlternatives 4)) c!"(a, b)" =
    .ok (.Tuple [.Variable [c!"a"], .Variable [c!"b"]]) [] := by
  rw [C66_target 4 (by decide)]; rfl

example : choice (reorder [1, 0] (entryAlternatives 4)) ≠ letEntry expression 4 :=
  fun h => absurd ((C66_entry 4 (by decide)).1 h) (by decide)

/-! ## Types -/

/-- src/ast/type_/mod.rs:124-137: the alternatives of `type_`. -/
def typeAlternatives (ind : Nat) : List (Parser Ty) :=
  [typeConstructor ind, typeVariable, typeRecordConstructor tyRec ind, typeRecord tyRec ind, typeTuple tyRec ind,
    typeParens tyRec ind]

/-- src/ast/type_/mod.rs:92-105: the alternatives of `type_parameter`. -/
def parameterAlternatives (ind : Nat) : List (Parser Ty) :=
  [typeVariable, typeConstant, typeRecordConstructor tyRec ind, typeRecord tyRec ind, typeTuple tyRec ind,
    typeParens tyRec ind]

theorem type_choice (ind : Nat) : choice (typeAlternatives ind) = type_ ind := by
  rw [type_unfold ind]
  simp only [typeAlternatives, choice_alt]
  funext s
  unfold typeF
  simp only [alt_apply]
  rw [show choice ([] : List (Parser Ty)) = fun _ => .err from rfl]
  simp only [orElse_err_right]
  rfl

theorem parameter_choice (ind : Nat) : choice (parameterAlternatives ind) = typeParameter tyRec ind := by
  simp only [parameterAlternatives, choice_alt]
  funext s
  unfold typeParameter
  simp only [alt_apply]
  rw [show choice ([] : List (Parser Ty)) = fun _ => .err from rfl]
  simp only [orElse_err_right]

def typeCharKind (c : Char) : Nat :=
  if Lower c then 0 else if Upper c then 1 else if c = '{' then 2 else if c = '(' then 3 else 4

def typeKind (s : Str) : Nat := (s.head?.map typeCharKind).getD 4

theorem type_kinds_upper {c : Char} {t : Str} (h : Upper c) : typeKind (c :: t) = 1 := by
  have : ¬ Lower c := by revert h; unfold Lower Upper; omega
  simp [typeKind, typeCharKind, h, this]

/-- The alternatives that `type_` and `type_parameter` share. -/
theorem type_kinds_bracket {ind : Nat} {s : Str} :
    (typeVariable s ≠ .err → typeKind s = 0) ∧ (typeRecordConstructor tyRec ind s ≠ .err → typeKind s = 2) ∧
    (typeRecord tyRec ind s ≠ .err → typeKind s = 2) ∧ (typeTuple tyRec ind s ≠ .err → typeKind s = 3) ∧
    (typeParens tyRec ind s ≠ .err → typeKind s = 3) := by
  cases s with
  | nil => exact ⟨fun h => absurd rfl h, fun h => absurd rfl h, fun h => absurd rfl h, fun h => absurd rfl h,
      fun h => absurd rfl h⟩
  | cons c t =>
    refine ⟨fun h => ?_, fun h => ?_, fun h => ?_, fun h => ?_, fun h => ?_⟩
    · by_cases e : Lower c
      · simp [typeKind, typeCharKind, e]
      · exact absurd (typeVariable_err e) h
    · by_cases e : c = '{'
      · subst e; rfl
      · exact absurd (typeRecordConstructor_err e) h
    · by_cases e : c = '{'
      · subst e; rfl
      · exact absurd (typeRecord_err e) h
    · by_cases e : c = '('
      · subst e; rfl
      · exact absurd (typeTuple_err e) h
    · by_cases e : c = '('
      · subst e; rfl
      · exact absurd (typeParens_err e) h

theorem type_kinds (ind : Nat) (s : Str) (i : Nat) (p : Parser Ty) (hi : (typeAlternatives ind)[i]? = some p)
    (hp : p s ≠ .err) : typeKind s ∈ ([[1], [0], [2], [2], [3], [3]] : List (List Nat))[i]?.getD [] := by
  obtain ⟨h1, h2, h3, h4, h5⟩ := type_kinds_bracket (ind := ind) (s := s)
  match i, hi with
  | 0, hi =>
    cases hi
    cases s with
    | nil => exact absurd rfl hp
    | cons c t =>
      by_cases e : Upper c
      · rw [type_kinds_upper e]; decide
      · exact absurd (typeConstructorF_err e) hp
  | 1, hi => cases hi; rw [h1 hp]; decide
  | 2, hi => cases hi; rw [h2 hp]; decide
  | 3, hi => cases hi; rw [h3 hp]; decide
  | 4, hi => cases hi; rw [h4 hp]; decide
  | 5, hi => cases hi; rw [h5 hp]; decide
  | n + 6, hi => simp [typeAlternatives] at hi

theorem parameter_kinds (ind : Nat) (s : Str) (i : Nat) (p : Parser Ty)
    (hi : (parameterAlternatives ind)[i]? = some p) (hp : p s ≠ .err) :
    typeKind s ∈ ([[0], [1], [2], [2], [3], [3]] : List (List Nat))[i]?.getD [] := by
  obtain ⟨h1, h2, h3, h4, h5⟩ := type_kinds_bracket (ind := ind) (s := s)
  match i, hi with
  | 0, hi => cases hi; rw [h1 hp]; decide
  | 1, hi =>
    cases hi
    cases s with
    | nil => exact absurd rfl hp
    | cons c t =>
      by_cases e : Upper c
      · rw [type_kinds_upper e]; decide
      · exact absurd (typeConstant_err e) hp
  | 2, hi => cases hi; rw [h2 hp]; decide
  | 3, hi => cases hi; rw [h3 hp]; decide
  | 4, hi => cases hi; rw [h4 hp]; decide
  | 5, hi => cases hi; rw [h5 hp]; decide
  | n + 6, hi => simp [parameterAlternatives] at hi

theorem cons_typeRecord_tyRec (ind k : Nat) : Cons k (typeRecord tyRec ind) :=
  (cons_typeRecord ⟨fun i => (cons_type_ k i).good, fun i => (cons_typeAnnotation k i).good⟩ ind).mono (Nat.le_succ k)

/-- C66: the six alternatives of `type_` may be put in any order in which tuples come before
parentheses, and in no other order. -/
theorem C66_type (ind : Nat) (hσ : σ.Perm (List.range 6)) :
    choice (reorder σ (typeAlternatives ind)) = type_ ind ↔ [4, 5].Sublist σ := by
  rw [← type_choice]
  constructor
  · intro h
    refine order_needed (s := c!"(a)") hσ (p := typeTuple tyRec ind) (q := typeParens tyRec ind) rfl rfl
      (by intro e; cases e) (by intro e; cases e) (by intro e; cases e) ?_ (congrFun h _)
    intro k x hk hx
    have := type_kinds ind _ k x hk hx
    match k, this with
    | 4, _ => exact .inl rfl
    | 5, _ => exact .inr rfl
    | n + 6, h => simp at h
  · intro h
    funext s
    refine choice_reorder hσ s fun i j p q hij hi hj hp hq => ?_
    have hm := pair_of_kinds [[1], [0], [2], [2], [3], [3]] _ [(2, 3), (4, 5)] (type_kinds ind s) (by decide)
      hij hi hj hp hq
    simp only [List.mem_cons, List.not_mem_nil, or_false, Prod.mk.injEq] at hm
    rcases hm with ⟨rfl, rfl⟩ | ⟨rfl, rfl⟩
    · cases hi
      cases hj
      obtain ⟨v, t, e⟩ := ok_of_ne (cons_typeRecord_tyRec ind) hq
      exact absurd (typeRecord_not_ext e) hp
    · exact .inr h

/-- C66: the same for `type_parameter`. -/
theorem C66_parameter (ind : Nat) (hσ : σ.Perm (List.range 6)) :
    choice (reorder σ (parameterAlternatives ind)) = typeParameter tyRec ind ↔ [4, 5].Sublist σ := by
  rw [← parameter_choice]
  constructor
  · intro h
    refine order_needed (s := c!"(a)") hσ (p := typeTuple tyRec ind) (q := typeParens tyRec ind) rfl rfl
      (by intro e; cases e) (by intro e; cases e) (by intro e; cases e) ?_ (congrFun h _)
    intro k x hk hx
    have := parameter_kinds ind _ k x hk hx
    match k, this with
    | 4, _ => exact .inl rfl
    | 5, _ => exact .inr rfl
    | n + 6, h => simp at h
  · intro h
    funext s
    refine choice_reorder hσ s fun i j p q hij hi hj hp hq => ?_
    have hm := pair_of_kinds [[0], [1], [2], [2], [3], [3]] _ [(2, 3), (4, 5)] (parameter_kinds ind s) (by decide)
      hij hi hj hp hq
    simp only [List.mem_cons, List.not_mem_nil, or_false, Prod.mk.injEq] at hm
    rcases hm with ⟨rfl, rfl⟩ | ⟨rfl, rfl⟩
    · cases hi
      cases hj
      obtain ⟨v, t, e⟩ := ok_of_ne (cons_typeRecord_tyRec ind) hq
      exact absurd (typeRecord_not_ext e) hp
    · exact .inr h

example : choice (reorder [3, 4, 2, 5, 1, 0] (typeAlternatives 0)) = type_ 0 := (C66_type 0 (by decide)).2 (by decide)
example : choice (reorder [3, 5, 2, 4, 1, 0] (parameterAlternatives 0)) ≠ typeParameter tyRec 0 :=
  fun h => absurd ((C66_parameter 0 (by decide)).1 h) (by decide)

/-! ## `statement` -/

/-- src/ast/statement/mod.rs:25-39: the alternatives of `statement`. -/
def statementAlternatives : List (Parser Statement) :=
  [portModuleDeclaration, effectModuleDeclaration, moduleDeclaration, importStatement, typeAliasDeclaration,
    typeDeclaration 0, portTypeDeclaration, portDeclaration, pmap (function 0) .Function, infixDeclaration, comment]

theorem statement_choice : choice statementAlternatives = statement := by
  simp only [statementAlternatives, choice_alt]
  funext s
  unfold statement
  simp only [alt_apply]
  rw [show choice ([] : List (Parser Statement)) = fun _ => .err from rfl]
  simp only [orElse_err_right]

def stmtCharKind (c : Char) : Nat :=
  if c = 'p' then 0 else if c = 'e' then 1 else if c = 'm' then 2 else if c = 'i' then 3 else if c = 't' then 4
  else if c = '-' ∨ c = '{' then 5 else 6

def stmtKind (s : Str) : Nat := (s.head?.map stmtCharKind).getD 6

def stmtKinds : List (List Nat) := [[0], [1], [2], [3], [4], [4], [0], [0], [0, 1, 2, 3, 4, 6], [3], [5]]

theorem stmt_kinds (s : Str) (i : Nat) (p : Parser Statement) (hi : statementAlternatives[i]? = some p)
    (hp : p s ≠ .err) : stmtKind s ∈ stmtKinds[i]?.getD [] := by
  have key : ∀ {d : Char} {k : Str} {α : Type} {f : Str → Parser α}, (tag (d :: k) >>= f) s ≠ .err →
      stmtKind s = stmtCharKind d := by
    intro d k α f h
    unfold stmtKind
    rw [tag_ne_head h]; rfl
  match i, hi with
  | 0, hi => cases hi; unfold portModuleDeclaration at hp; rw [key hp]; decide
  | 1, hi => cases hi; unfold effectModuleDeclaration at hp; rw [key hp]; decide
  | 2, hi => cases hi; unfold moduleDeclaration at hp; rw [key hp]; decide
  | 3, hi => cases hi; unfold importStatement at hp; rw [key hp]; decide
  | 4, hi => cases hi; unfold typeAliasDeclaration at hp; rw [key hp]; decide
  | 5, hi => cases hi; unfold typeDeclaration at hp; rw [key hp]; decide
  | 6, hi => cases hi; unfold portTypeDeclaration at hp; rw [key hp]; decide
  | 7, hi => cases hi; unfold portDeclaration at hp; rw [key hp]; decide
  | 8, hi =>
    cases hi
    cases s with
    | nil => exact absurd rfl hp
    | cons c t =>
      by_cases e : c = '-' ∨ c = '{'
      · exfalso
        apply hp
        rw [pmap_apply, function_err_head] <;> rcases e with rfl | rfl <;> first | rfl | decide
      · show stmtCharKind c ∈ [0, 1, 2, 3, 4, 6]
        unfold stmtCharKind
        rw [if_neg e]
        repeat' split
        all_goals decide
  | 9, hi =>
    cases hi
    cases s with
    | nil => exact absurd rfl hp
    | cons c t =>
      by_cases e : c = 'i'
      · subst e; exact (by decide : (3 : Nat) ∈ [3])
      · exact absurd (infix_err_head e) hp
  | 10, hi =>
    cases hi
    have : s.head? = some '-' ∨ s.head? = some '{' := by
      unfold comment at hp
      rw [alt_apply] at hp
      cases s with
      | nil => exact absurd rfl hp
      | cons c t =>
        by_cases h1 : c = '-'
        · left; rw [h1]; rfl
        · by_cases h2 : c = '{'
          · right; rw [h2]; rfl
          · exfalso
            apply hp
            unfold lineCommentStatement multiLineComment
            simp only [pmap_apply, bind_apply, preceded_apply, tag_cons_ne h1, tag_cons_ne h2, andThen_err, orElse_err]
    unfold stmtKind
    rcases this with h | h <;> rw [h] <;> decide
  | n + 11, hi => simp [statementAlternatives] at hi

/-- C66: the eleven alternatives of `statement` may be put in any order in which functions come
before infix declarations, and in no other order. -/
theorem C66_statement (hσ : σ.Perm (List.range 11)) :
    choice (reorder σ statementAlternatives) = statement ↔ [8, 9].Sublist σ := by
  rw [← statement_choice]
  constructor
  · intro h
    refine order_needed (s := c!"infixl 5 x = 3") hσ (p := pmap (function 0) .Function) (q := infixDeclaration) rfl rfl
      (by intro e; cases e) (by intro e; cases e) (by intro e; cases e) ?_ (congrFun h _)
    intro k x hk hx
    have := stmt_kinds _ k x hk hx
    match k, this, hk with
    | 3, _, hk => cases hk; exact absurd rfl hx
    | 8, _, _ => exact .inl rfl
    | 9, _, _ => exact .inr rfl
    | n + 11, h, _ => simp [stmtKinds] at h
  · intro h
    funext s
    refine choice_reorder hσ s fun i j p q hij hi hj hp hq => ?_
    have hm := pair_of_kinds stmtKinds _ [(0, 6), (0, 7), (6, 7), (4, 5), (3, 9), (0, 8), (1, 8), (2, 8), (3, 8), (4, 8),
      (5, 8), (6, 8), (7, 8), (8, 9)] (stmt_kinds s) (by decide) hij hi hj hp hq
    have hf : pmap (function 0) Statement.Function s ≠ .err → NotDecl s := fun h => by
      obtain ⟨v, t, e⟩ := ok_of_ne (fun k => cons_pmap (cons_function k 0)) h
      obtain ⟨f, e, -⟩ := pmap_eq_ok.1 e
      exact function_notDecl e
    simp only [List.mem_cons, List.not_mem_nil, or_false, Prod.mk.injEq] at hm
    rcases hm with ⟨rfl, rfl⟩ | ⟨rfl, rfl⟩ | ⟨rfl, rfl⟩ | ⟨rfl, rfl⟩ | ⟨rfl, rfl⟩ | ⟨rfl, rfl⟩ | ⟨rfl, rfl⟩ |
      ⟨rfl, rfl⟩ | ⟨rfl, rfl⟩ | ⟨rfl, rfl⟩ | ⟨rfl, rfl⟩ | ⟨rfl, rfl⟩ | ⟨rfl, rfl⟩ | ⟨rfl, rfl⟩ <;> cases hi <;> cases hj
    · obtain ⟨v, t, e⟩ := ok_of_ne cons_portTypeDeclaration hq
      exact absurd (portType_not_module e) hp
    · obtain ⟨v, t, e⟩ := ok_of_ne cons_portDeclaration hq
      exact absurd (portDecl_not_module e) hp
    · obtain ⟨v, t, e⟩ := ok_of_ne cons_portDeclaration hq
      exact absurd (portDecl_not_type e) hp
    · obtain ⟨v, t, e⟩ := ok_of_ne (fun k => cons_typeDeclaration k 0) hq
      exact absurd (typeDecl_not_alias e) hp
    · exfalso
      obtain ⟨v, t, e⟩ := ok_of_ne cons_infixDeclaration hq
      unfold infixDeclaration at e
      simp only [bind_eq_ok] at e
      obtain ⟨a, s1, k1, -⟩ := e
      obtain ⟨e, -⟩ := assoc_iff.1 k1
      apply hp
      have ht : tag c!"import" s = .err := by
        rw [e]
        cases a <;> rfl
      exact import_err (tag_no2 ht)
    · exact absurd (hf hq).portModule hp
    · exact absurd (hf hq).effectModule hp
    · exact absurd (hf hq).module_ hp
    · exact absurd (hf hq).import_ hp
    · exact absurd (hf hq).typeAlias hp
    · exact absurd (hf hq).type_ hp
    · exact absurd (hf hq).portType hp
    · exact absurd (hf hq).port hp
    · exact .inr h

example : choice (reorder [10, 8, 9, 7, 6, 5, 4, 3, 2, 1, 0] statementAlternatives) = statement :=
  (C66_statement (by decide)).2 (by decide)

/-- Infix declarations before functions: the definition of a function called `infixl` is cut off. -/
example : choice (reorder [0, 1, 2, 3, 4, 5, 6, 7, 9, 8, 10] statementAlternatives) ≠ statement :=
  fun h => absurd ((C66_statement (by decide)).1 h) (by decide)

/-! ## The small ones -/

theorem choice_pair {α : Type} (p q : Parser α) : choice [p, q] = (p </> q) := by
  rw [choice_alt, choice_one]

/-- Two alternatives that answer differently on some text cannot be exchanged. -/
theorem pair_order {α : Type} {p q : Parser α} (s : Str) (hp : p s ≠ .err) (hq : q s ≠ .err) (hpq : p s ≠ q s)
    (hσ : σ.Perm (List.range 2)) : choice (reorder σ [p, q]) = (p </> q) ↔ [0, 1].Sublist σ := by
  rw [← choice_pair]
  constructor
  · intro h
    refine order_needed (s := s) hσ (p := p) (q := q) rfl rfl hp hq hpq ?_ ((congrFun h s).trans ?_)
    · intro k x hk _
      match k, hk with
      | 0, _ => exact .inl rfl
      | 1, _ => exact .inr rfl
      | n + 2, hk => simp at hk
    · rw [choice_cons]
      cases e : p s with
      | err => exact absurd e hp
      | _ => rfl
  · intro h
    funext s
    refine choice_reorder hσ s fun i j p q hij hi hj _ _ => .inr ?_
    have hj' : j < 2 := (List.getElem?_eq_some_iff.1 hj).1
    have : i = 0 ∧ j = 1 := by omega
    rw [this.1, this.2]
    exact h

/-- Two alternatives of which one fails on every text may be exchanged. -/
theorem pair_any {α : Type} {p q : Parser α} (h : ∀ s, p s = .err ∨ q s = .err) (hσ : σ.Perm (List.range 2)) :
    choice (reorder σ [p, q]) = (p </> q) := by
  rw [← choice_pair]
  funext s
  refine choice_reorder hσ s fun i j p' q' hij hi hj hp hq => ?_
  have hj' : j < 2 := (List.getElem?_eq_some_iff.1 hj).1
  have : i = 0 ∧ j = 1 := by omega
  obtain ⟨rfl, rfl⟩ := this
  cases hi
  cases hj
  rcases h s with h | h
  · exact absurd h hp
  · exact absurd h hq

/-- C66: triple-quoted strings have to come before the others (src/ast/expression/string.rs:25-33). -/
theorem C66_string (hσ : σ.Perm (List.range 2)) :
    pmap (choice (reorder σ [multiString, singleString])) .String = string ↔ [0, 1].Sublist σ := by
  have key := pair_order (p := multiString) (q := singleString) c!"\"\"\"a\"\"\"" (by intro e; cases e)
    (by intro e; cases e) (by intro e; cases e) hσ
  rw [← key]
  constructor
  · intro h
    funext s
    have hs := congrFun h s
    unfold string at hs
    rw [pmap_apply, pmap_apply] at hs
    revert hs
    generalize choice (reorder σ [multiString, singleString]) s = x
    generalize (multiString </> singleString) s = y
    intro hs
    cases x <;> cases y <;> simp [Res.andThen] at hs ⊢
    exact hs
  · intro h
    rw [h]; rfl

/-- C66: `\xHH` has to come before the other characters (src/ast/expression/character.rs:8-24). -/
theorem C66_character (hσ : σ.Perm (List.range 2)) :
    choice (reorder σ [hexChar, anychar]) = characterContent ↔ [0, 1].Sublist σ :=
  pair_order (p := hexChar) (q := anychar) c!"\\x41" (by intro e; cases e) (by intro e; cases e)
    (by intro e; cases e) hσ

/-- src/ast/statement/infix.rs:10-14: the alternatives for the keyword of an infix declaration. -/
def assocAlternatives : List (Parser Assoc) :=
  [value Assoc.L (tag c!"infixl"), value Assoc.R (tag c!"infixr"), value Assoc.N (tag c!"infix")]

theorem value_tag {α : Type} {v : α} {k s : Str} (h : value v (tag k) s ≠ .err) : ∃ t, s = k ++ t := by
  unfold value at h
  rw [pmap_apply] at h
  cases e : tag k s with
  | ok w t => exact ⟨t, (tag_eq_ok.1 e).2⟩
  | err => rw [e] at h; exact absurd rfl h
  | panic => unfold tag at e; split at e <;> cases e
  | div => unfold tag at e; split at e <;> cases e

/-- C66: `infix` has to come after `infixl` and `infixr`. -/
theorem C66_infix (hσ : σ.Perm (List.range 3)) :
    choice (reorder σ assocAlternatives) =
      (value Assoc.L (tag c!"infixl") </> value Assoc.R (tag c!"infixr") </> value Assoc.N (tag c!"infix")) ↔
    [0, 2].Sublist σ ∧ [1, 2].Sublist σ := by
  have hc : choice assocAlternatives =
      (value Assoc.L (tag c!"infixl") </> value Assoc.R (tag c!"infixr") </> value Assoc.N (tag c!"infix")) := by
    unfold assocAlternatives
    rw [choice_alt, choice_alt, choice_one]
  rw [← hc]
  constructor
  · intro h
    constructor
    · refine order_needed (s := c!"infixl") hσ (p := value Assoc.L (tag c!"infixl")) (q := value Assoc.N (tag c!"infix"))
        rfl rfl (by intro e; cases e) (by intro e; cases e) (by intro e; cases e) ?_ (congrFun h _)
      intro k x hk hx
      match k, hk with
      | 0, _ => exact .inl rfl
      | 1, hk => cases hk; exact absurd rfl hx
      | 2, _ => exact .inr rfl
      | n + 3, hk => simp [assocAlternatives] at hk
    · refine order_needed (s := c!"infixr") hσ (p := value Assoc.R (tag c!"infixr")) (q := value Assoc.N (tag c!"infix"))
        rfl rfl (by intro e; cases e) (by intro e; cases e) (by intro e; cases e) ?_ (congrFun h _)
      intro k x hk hx
      match k, hk with
      | 0, hk => cases hk; exact absurd rfl hx
      | 1, _ => exact .inl rfl
      | 2, _ => exact .inr rfl
      | n + 3, hk => simp [assocAlternatives] at hk
  · rintro ⟨h1, h2⟩
    funext s
    refine choice_reorder hσ s fun i j p q hij hi hj hp hq => ?_
    have hj' : j < 3 := (List.getElem?_eq_some_iff.1 hj).1
    have : (i = 0 ∧ j = 1) ∨ (i = 0 ∧ j = 2) ∨ (i = 1 ∧ j = 2) := by omega
    rcases this with ⟨rfl, rfl⟩ | ⟨rfl, rfl⟩ | ⟨rfl, rfl⟩
    · cases hi
      cases hj
      obtain ⟨t, rfl⟩ := value_tag hp
      obtain ⟨u, e⟩ := value_tag hq
      simp at e
    · exact .inr h1
    · exact .inr h2

theorem loName_ne {s : Str} (h : loName s ≠ .err) : ∃ c t, s = c :: t ∧ (Lower c ∨ c = '_') := by
  cases s with
  | nil => exact absurd rfl h
  | cons c t =>
    refine ⟨c, t, rfl, ?_⟩
    apply Classical.byContradiction
    intro hc
    simp only [not_or] at hc
    exact h (loName_err_head hc.1 hc.2)

theorem operator_ne {s : Str} (h : operator s ≠ .err) : ∃ c t, s = c :: t ∧ OpChar c := by
  cases s with
  | nil => exact absurd rfl h
  | cons c t =>
    refine ⟨c, t, rfl, ?_⟩
    apply Classical.byContradiction
    intro hc
    exact h (operator_err_head hc)

theorem lower_not_op {c : Char} (h : Lower c ∨ c = '_') : ¬ OpChar c ∧ c ≠ '(' ∧ c ≠ '.' ∧ ¬ Upper c := by
  have hi : IdentChar c := by
    rcases h with h | h
    · exact .inl h
    · exact .inr (.inr (.inr h))
  refine ⟨fun h' => (opChar_not h').1 hi, ?_, ?_, ?_⟩
  · rintro rfl; revert h; decide
  · rintro rfl; revert h; decide
  · rcases h with h | rfl
    · revert h; unfold Lower Upper; omega
    · decide

/-- C66: names and parenthesised operators, names and operators, the word `as` and operators,
operators and commas in parentheses, line comments and block comments may be tried in any order. -/
theorem C66_names (hσ : σ.Perm (List.range 2)) :
    choice (reorder σ [loName, delimited (char '(') operator (char ')')]) = functionNameOrOp ∧
    choice (reorder σ [loName, operator]) = (loName </> operator) ∧
    pmap (choice (reorder σ [tag c!"as", operator])) (fun op => .Variable [op]) = operatorOrAs ∧
    pmap (delimited (char '(') (choice (reorder σ [operator, takeWhile1 (fun c => c == ',')])) (char ')'))
      (fun s => .Variable [s]) = op ∧
    choice (reorder σ [lineCommentStatement, multiLineComment]) = comment := by
  refine ⟨pair_any (fun s => ?_) hσ, pair_any (fun s => ?_) hσ, ?_, ?_, pair_any (fun s => ?_) hσ⟩
  · by_cases h : loName s = .err
    · exact .inl h
    · obtain ⟨c, t, rfl, hc⟩ := loName_ne h
      right
      rw [delimited_apply, char_cons_ne _ (lower_not_op hc).2.1]
      rfl
  · by_cases h : loName s = .err
    · exact .inl h
    · obtain ⟨c, t, rfl, hc⟩ := loName_ne h
      exact .inr (operator_err_head (lower_not_op hc).1)
  · rw [pair_any (fun s => ?_) hσ]
    · rfl
    · by_cases h : operator s = .err
      · exact .inr h
      · obtain ⟨c, t, rfl, hc⟩ := operator_ne h
        refine .inl (tag_cons_ne ?_)
        rintro rfl
        revert hc; decide
  · rw [pair_any (fun s => ?_) hσ]
    · rfl
    · by_cases h : operator s = .err
      · exact .inl h
      · obtain ⟨c, t, rfl, hc⟩ := operator_ne h
        right
        refine takeWhile1_err.2 ?_
        intro x u e
        obtain ⟨rfl, -⟩ := List.cons.inj e
        by_cases hx : c = ','
        · subst hx; revert hc; decide
        · simpa using hx
  · cases s with
    | nil => exact .inl rfl
    | cons c t =>
      by_cases h : c = '-'
      · subst h
        right
        unfold multiLineComment
        rw [pmap_apply, preceded_apply, tag_cons_ne (by decide)]
        rfl
      · left
        unfold lineCommentStatement
        rw [bind_apply, preceded_apply, tag_cons_ne h]
        rfl

/-- C66: in an export list, `..` and names, and functions and types, may be tried in any order. -/
theorem C66_exports (hσ : σ.Perm (List.range 2)) :
    choice (reorder σ [allExport, subsetExport]) = (allExport </> subsetExport) ∧
    choice (reorder σ [allExport, constructorSubsetExports]) = (allExport </> constructorSubsetExports) ∧
    choice (reorder σ [functionExport, typeExport]) = (functionExport </> typeExport) := by
  have hup : ∀ {c : Char} {t : Str}, ¬ Upper c → upName (c :: t) = .err :=
    fun h => upName_err.2 (next_cons.2 h)
  have hf : ∀ {c : Char} {t : Str}, ¬ Lower c → c ≠ '_' → c ≠ '(' → functionExport (c :: t) = .err := by
    intro c t h1 h2 h3
    unfold functionExport functionName
    rw [pmap_apply, alt_apply, pmap_apply, loName_err_head h1 h2, delimited_apply, char_cons_ne _ h3]
    rfl
  have ht : ∀ {c : Char} {t : Str}, ¬ Upper c → typeExport (c :: t) = .err := by
    intro c t h
    unfold typeExport
    rw [bind_apply, hup h]
    rfl
  have hall : ∀ {c : Char} {t : Str}, c ≠ '.' → allExport (c :: t) = .err := by
    intro c t h
    unfold allExport
    rw [pmap_apply, tag_cons_ne h]
    rfl
  refine ⟨pair_any (fun s => ?_) hσ, pair_any (fun s => ?_) hσ, pair_any (fun s => ?_) hσ⟩
  · cases s with
    | nil => exact .inl rfl
    | cons c t =>
      by_cases h : c = '.'
      · subst h
        right
        unfold subsetExport sepNonemptyList
        rw [pmap_apply, alt_apply, hf (by decide) (by decide) (by decide), ht (by decide)]
        rfl
      · exact .inl (hall h)
  · cases s with
    | nil => exact .inl rfl
    | cons c t =>
      by_cases h : c = '.'
      · subst h
        right
        unfold constructorSubsetExports sepNonemptyList
        rw [pmap_apply, pmap_apply, hup (by decide)]
        rfl
      · exact .inl (hall h)
  · cases s with
    | nil => exact .inl rfl
    | cons c t =>
      by_cases h : Upper c
      · left
        refine hf ?_ ?_ ?_
        · revert h; unfold Lower Upper; omega
        · rintro rfl; revert h; decide
        · rintro rfl; revert h; decide
      · exact .inr (ht h)

theorem singleLineComment_head {c : Char} {t : Str} (h : c ≠ '-') : singleLineComment (c :: t) = .err := by
  unfold singleLineComment
  rw [bind_apply, preceded_apply, tag_cons_ne h]
  rfl

/-- src/ast/expression/variable.rs:33-39: the alternatives of `variable`. -/
def variableAlternatives : List (Parser Expr) := [lowerCase, upperWithDots, op]

/-- src/ast/helpers.rs:99-110: the alternatives for one piece of a gap. -/
def gapAlternatives (ind : Nat) : List (Parser (List (SpacesContent × Nat))) :=
  [value [(.Spaces, ind)] spaces, pmap singleLineComment fun _ => [(.Comment, 0)], many1 newLineItem]

/-- If the alternatives answer only on texts with different first characters, any order will do. -/
theorem any_of_head {α : Type} {l : List (Parser α)} (κ : Char → Nat) (hnil : ∀ p ∈ l, p [] = .err)
    (h : ∀ (i : Nat) (p : Parser α), l[i]? = some p → ∀ c t, κ c ≠ i → p (c :: t) = .err)
    (hσ : σ.Perm (List.range l.length)) : choice (reorder σ l) = choice l := by
  funext s
  refine choice_reorder hσ s fun i j p q hij hi hj hp hq => ?_
  exfalso
  cases s with
  | nil => exact hp (hnil p (List.mem_of_getElem? hi))
  | cons c t =>
    by_cases e : κ c = i
    · exact hq (h j q hj c t (by omega))
    · exact hp (h i p hi c t e)

/-- C66: the alternatives of `variable`, and those for one piece of a gap, may be put in any
order; so may the two signs and the two kinds of names. -/
theorem C66_lexical (ind : Nat) {τ : List Nat} (hσ : σ.Perm (List.range 3)) (hτ : τ.Perm (List.range 2)) :
    choice (reorder σ variableAlternatives) = variableP ∧
    choice (reorder σ (gapAlternatives ind)) = gapItem ind ∧
    choice (reorder τ [char '+', char '-']) = (char '+' </> char '-') ∧
    choice (reorder τ [tag c!"_", loNameRe]) = loName := by
  refine ⟨?_, ?_, pair_any (fun s => ?_) hτ, pair_any (fun s => ?_) hτ⟩
  · have hc : choice variableAlternatives = variableP := by
      unfold variableAlternatives
      rw [choice_alt, choice_alt, choice_one]
      rfl
    rw [← hc]
    refine any_of_head (fun c => if Lower c ∨ c = '_' then 0 else if Upper c then 1 else 2) ?_ ?_ hσ
    · intro p hp
      simp only [variableAlternatives, List.mem_cons, List.not_mem_nil, or_false] at hp
      rcases hp with rfl | rfl | rfl <;> rfl
    · intro i p hi c t hc
      match i, hi with
      | 0, hi =>
        cases hi
        refine lowerCase_err (loName_err_head ?_ ?_)
        · intro h; simp [h] at hc
        · intro h; simp [h] at hc
      | 1, hi =>
        cases hi
        refine upperWithDots_err fun h => hc ?_
        have h1 : ¬ (Lower c ∨ c = '_') := fun h' => (lower_not_op h').2.2.2 h
        simp [h1, h]
      | 2, hi =>
        cases hi
        refine op_err_head fun h => hc ?_
        subst h
        decide
      | n + 3, hi => simp [variableAlternatives] at hi
  · have hc : choice (gapAlternatives ind) = gapItem ind := by
      unfold gapAlternatives
      rw [choice_alt, choice_alt, choice_one]
      rfl
    rw [← hc]
    refine any_of_head (fun c => if c = ' ' then 0 else if c = '-' then 1 else 2) ?_ ?_ hσ
    · intro p hp
      simp only [gapAlternatives, List.mem_cons, List.not_mem_nil, or_false] at hp
      rcases hp with rfl | rfl | rfl <;> rfl
    · intro i p hi c t hc
      match i, hi with
      | 0, hi =>
        cases hi
        unfold value
        rw [pmap_apply, spaces_err.2 (next_cons.2 fun h => hc (by simp [h]))]
        rfl
      | 1, hi =>
        cases hi
        rw [pmap_apply, singleLineComment_head]
        · rfl
        · rintro rfl; exact hc (by decide)
      | 2, hi =>
        cases hi
        have : newLineItem (c :: t) = .err := newLineItem_err (next_cons.2 (by
          rintro rfl; exact hc (by decide)))
        rw [many1_apply, this]
        rfl
      | n + 3, hi => simp [gapAlternatives] at hi
  · cases s with
    | nil => exact .inl rfl
    | cons c t =>
      by_cases h : c = '+'
      · subst h; exact .inr (char_cons_ne _ (by decide))
      · exact .inl (char_cons_ne _ h)
  · cases s with
    | nil => exact .inl rfl
    | cons c t =>
      by_cases h : c = '_'
      · subst h; exact .inr rfl
      · exact .inl (tag_cons_ne h)

/-- C66: after a newline, spaces have to be tried before a comment (src/ast/helpers.rs:105-108);
as they never fail, a comment is never tried there. -/
theorem C66_newline (hσ : σ.Perm (List.range 2)) :
    preceded (char '\n') (choice (reorder σ
      [pmap spaces0 fun s => (SpacesContent.NewLineAndSpaces, asU32 s.length),
        pmap singleLineComment fun _ => (.Comment, 0)])) = newLineItem ↔ [0, 1].Sublist σ := by
  rw [← pair_order (p := pmap spaces0 fun s => (SpacesContent.NewLineAndSpaces, asU32 s.length))
    (q := pmap singleLineComment fun _ => (SpacesContent.Comment, 0)) c!"--" (by intro e; cases e) (by intro e; cases e)
    (by intro e; cases e) hσ]
  constructor
  · intro h
    funext s
    have hs := congrFun h ('\n' :: s)
    unfold newLineItem at hs
    rw [preceded_apply, preceded_apply, char_cons, andThen_ok, andThen_ok] at hs
    exact hs
  · intro h
    rw [h]; rfl

example : [1, 0].Perm (List.range 2) ∧ ¬ [0, 1].Sublist [1, 0] := by decide
example : choice (reorder [1, 0, 2] assocAlternatives) c!"infixr 5 x" = .ok .R c!" 5 x" := by
  rw [(C66_infix (by decide)).2 (by decide)]; rfl
example : choice (reorder [1, 0] [allExport, subsetExport]) c!"a, B" =
    .ok (.SubsetExport [.FunctionExport c!"a", .TypeExport c!"B" none]) [] := by
  rw [(C66_exports (by decide)).1]; rfl
example := C66_string (σ := [1, 0]) (by decide)
example := C66_character (σ := [1, 0]) (by decide)
example := C66_names (σ := [1, 0]) (by decide)
example := C66_lexical 4 (σ := [2, 0, 1]) (τ := [1, 0]) (by decide) (by decide)
example := C66_newline (σ := [0, 1]) (by decide)

end ElmParser
