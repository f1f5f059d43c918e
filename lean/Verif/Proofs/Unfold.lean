import Verif.Proofs.Total

/-! The public recursive parsers satisfy the recursive equations of the source:
the nesting budget of the model is not observable. -/
namespace ElmParser

variable {α β γ δ : Type}

/-- `q` answers whatever `p` answers, unless `p` ran out of budget. -/
def Le (p q : Parser α) : Prop := ∀ s, p s = .div ∨ p s = q s

theorem Le.refl (p : Parser α) : Le p p := fun _ => .inr rfl
theorem Le.trans {p q r : Parser α} (h : Le p q) (g : Le q r) : Le p r := fun s => by
  rcases h s with h | h
  · exact .inl h
  · rw [h]; exact g s

theorem le_bind {p q : Parser α} {f g : α → Parser β} (h : Le p q) (hf : ∀ v, Le (f v) (g v)) :
    Le (p >>= f) (q >>= g) := fun s => by
  simp only [bind_apply]
  rcases h s with h | h
  · exact .inl (by rw [h]; rfl)
  · rw [← h]
    cases p s with
    | ok v r => exact hf v r
    | err => exact .inr rfl
    | panic => exact .inr rfl
    | div => exact .inr rfl

theorem le_alt {p q p' q' : Parser α} (h : Le p q) (h' : Le p' q') :
    Le (p </> p') (q </> q') := fun s => by
  simp only [alt_apply]
  rcases h s with h | h
  · exact .inl (by rw [h]; rfl)
  · rw [← h]
    cases p s with
    | ok v r => exact .inr rfl
    | err => exact h' s
    | panic => exact .inr rfl
    | div => exact .inr rfl

theorem le_pmap {p q : Parser α} {f : α → β} (h : Le p q) : Le (pmap p f) (pmap q f) :=
  le_bind h fun _ => Le.refl _
theorem le_opt {p q : Parser α} (h : Le p q) : Le (opt p) (opt q) :=
  le_alt (le_pmap h) (Le.refl _)
theorem le_preceded {p q : Parser α} {p' q' : Parser β} (h : Le p q) (h' : Le p' q') :
    Le (preceded p p') (preceded q q') := le_bind h fun _ => h'
theorem le_terminated {p q : Parser α} {p' q' : Parser β} (h : Le p q) (h' : Le p' q') :
    Le (terminated p p') (terminated q q') := le_bind h fun _ => le_bind h' fun _ => Le.refl _
theorem le_delimited {p q : Parser α} {p' q' : Parser β} {p'' q'' : Parser γ} (h : Le p q)
    (h' : Le p' q') (h'' : Le p'' q'') : Le (delimited p p' p'') (delimited q q' q'') :=
  le_bind h fun _ => le_bind h' fun _ => le_bind h'' fun _ => Le.refl _
theorem le_separatedPair {p q : Parser α} {p' q' : Parser β} {p'' q'' : Parser γ} (h : Le p q)
    (h' : Le p' q') (h'' : Le p'' q'') : Le (separatedPair p p' p'') (separatedPair q q' q'') :=
  le_bind h fun _ => le_bind h' fun _ => le_bind h'' fun _ => Le.refl _

theorem le_many0Loop {p q : Parser α} (h : Le p q) (n : Nat) :
    Le (many0Loop p n) (many0Loop q n) := by
  induction n with
  | zero => exact Le.refl _
  | succ n ih =>
    intro s
    simp only [many0Loop]
    rcases h s with h | h
    · exact .inl (by rw [h])
    · rw [← h]
      cases p s with
      | ok v r =>
        simp only
        split
        · exact .inr rfl
        · rcases ih r with e | e
          · exact .inl (by rw [e]; rfl)
          · exact .inr (by rw [e])
      | err => exact .inr rfl
      | panic => exact .inr rfl
      | div => exact .inr rfl

theorem le_many0 {p q : Parser α} (h : Le p q) : Le (many0 p) (many0 q) :=
  fun s => le_many0Loop h (s.length + 1) s

theorem le_sepLoop {p q : Parser α} (sep : Parser β) (h : Le p q) (n : Nat) :
    Le (sepLoop sep p n) (sepLoop sep q n) := by
  induction n with
  | zero => exact Le.refl _
  | succ n ih =>
    intro s
    simp only [sepLoop]
    cases sep s with
    | ok w s2 =>
      simp only
      split
      · exact .inr rfl
      · rcases h s2 with h | h
        · exact .inl (by rw [h])
        · rw [← h]
          cases p s2 with
          | ok v r =>
            simp only
            split
            · exact .inr rfl
            · rcases ih r with e | e
              · exact .inl (by rw [e]; rfl)
              · exact .inr (by rw [e])
          | err => exact .inr rfl
          | panic => exact .inr rfl
          | div => exact .inr rfl
    | err => exact .inr rfl
    | panic => exact .inr rfl
    | div => exact .inr rfl

theorem le_sepNonemptyList {p q : Parser α} (sep : Parser β) (h : Le p q) :
    Le (sepNonemptyList sep p) (sepNonemptyList sep q) := fun s => by
  simp only [sepNonemptyList]
  rcases h s with e | e
  · exact .inl (by rw [e]; rfl)
  · rw [← e]
    cases p s with
    | ok v r =>
      simp only [andThen_ok]
      split
      · exact .inr rfl
      · rcases le_sepLoop sep h (r.length + 1) r with e | e
        · exact .inl (by rw [e]; rfl)
        · exact .inr (by rw [e])
    | err => exact .inr rfl
    | panic => exact .inr rfl
    | div => exact .inr rfl

theorem le_sepList {p q : Parser α} (sep : Parser β) (h : Le p q) :
    Le (sepList sep p) (sepList sep q) := fun s => by
  simp only [sepList]
  rcases h s with e | e
  · exact .inl (by rw [e])
  · rw [← e]
    cases p s with
    | ok v r =>
      simp only
      split
      · exact .inr rfl
      · rcases le_sepLoop sep h (r.length + 1) r with e | e
        · exact .inl (by rw [e]; rfl)
        · exact .inr (by rw [e])
    | err => exact .inr rfl
    | panic => exact .inr rfl
    | div => exact .inr rfl

/-- Structural proof that a parser is monotone in the parsers it uses. -/
macro "le_tac" : tactic => `(tactic| repeat' first
  | with_reducible exact Le.refl _
  | assumption
  | with_reducible apply le_alt
  | with_reducible apply le_pmap
  | with_reducible apply le_opt
  | with_reducible apply le_preceded
  | with_reducible apply le_terminated
  | with_reducible apply le_delimited
  | with_reducible apply le_separatedPair
  | with_reducible apply le_many0
  | with_reducible apply le_sepNonemptyList
  | with_reducible apply le_sepList
  | with_reducible refine le_bind ?_ fun _ => ?_)

/-! ### Types -/

structure TyLe (R S : TyRec) : Prop where
  ty : ∀ ind, Le (R.type_ ind) (S.type_ ind)
  ann : ∀ ind, Le (R.typeAnnotation ind) (S.typeAnnotation ind)

section
variable {R S : TyRec} (h : TyLe R S) (ind : Nat)
include h

theorem le_typeRecordPairs : Le (typeRecordPairs R ind) (typeRecordPairs S ind) := by
  have := h.ann ind
  unfold typeRecordPairs typeRecordPair
  le_tac

theorem le_typeParameter : Le (typeParameter R ind) (typeParameter S ind) := by
  have h1 := h.ann ind
  have h2 := h.ty ind
  have h3 := le_typeRecordPairs h ind
  unfold typeParameter typeRecordConstructor typeRecord typeTuple typeParens
  le_tac

theorem le_typeConstructorF : Le (typeConstructorF R ind) (typeConstructorF S ind) := by
  have h1 := le_typeParameter h
  unfold typeConstructorF typeArg
  le_tac
  exact h1 _

theorem le_typeF : Le (typeF R ind) (typeF S ind) := by
  have h1 := h.ann ind
  have h2 := h.ty ind
  have h3 := le_typeRecordPairs h ind
  have h4 := le_typeConstructorF h ind
  unfold typeF typeRecordConstructor typeRecord typeTuple typeParens
  le_tac

theorem le_typeAnnotationF : Le (typeAnnotationF R ind) (typeAnnotationF S ind) := by
  have h1 := le_typeF h ind
  unfold typeAnnotationF
  le_tac
end

theorem tyLe_succ (n : Nat) : TyLe (tyN n) (tyN (n + 1)) := by
  induction n with
  | zero => exact ⟨fun _ _ => .inl rfl, fun _ _ => .inl rfl⟩
  | succ n ih => exact ⟨fun i => le_typeF ih i, fun i => le_typeAnnotationF ih i⟩

theorem tyLe_le {n m : Nat} (h : n ≤ m) : TyLe (tyN n) (tyN m) := by
  induction h with
  | refl => exact ⟨fun _ => Le.refl _, fun _ => Le.refl _⟩
  | step _ ih =>
    exact ⟨fun i => (ih.ty i).trans ((tyLe_succ _).ty i),
      fun i => (ih.ann i).trans ((tyLe_succ _).ann i)⟩

theorem ne_div_of_good {k : Nat} {p : Parser α} (h : Good k p) {s : Str} (hs : s.length < k) :
    p s ≠ .div := by
  rcases h s hs with e | ⟨v, r, e, -⟩ <;> simp [e]

theorem le_eq {p q : Parser α} {s : Str} (h : Le p q) (hp : p s ≠ .div) : p s = q s :=
  (h s).resolve_left hp

theorem tyLe_tyRec (n : Nat) : TyLe (tyN n) tyRec := by
  constructor
  · intro ind s
    show _ ∨ _ = (tyN (s.length + 1)).type_ ind s
    rcases Nat.le_total n (s.length + 1) with h | h
    · exact (tyLe_le h).ty ind s
    · exact .inr (le_eq ((tyLe_le h).ty ind)
        (ne_div_of_good ((goodRec_tyN _).ty ind) (Nat.lt_succ_self _))).symm
  · intro ind s
    show _ ∨ _ = (tyN (s.length + 1)).typeAnnotation ind s
    rcases Nat.le_total n (s.length + 1) with h | h
    · exact (tyLe_le h).ann ind s
    · exact .inr (le_eq ((tyLe_le h).ann ind)
        (ne_div_of_good ((goodRec_tyN _).ann ind) (Nat.lt_succ_self _))).symm

theorem type_unfold (ind : Nat) : type_ ind = typeF tyRec ind := by
  funext s
  rw [type_apply]
  exact le_eq (le_typeF (tyLe_tyRec s.length) ind)
    (ne_div_of_good ((goodRec_tyN (s.length + 1)).ty ind) (Nat.lt_succ_self _))

theorem typeAnnotation_unfold (ind : Nat) : typeAnnotation ind = typeAnnotationF tyRec ind := by
  funext s
  rw [typeAnnotation_apply]
  exact le_eq (le_typeAnnotationF (tyLe_tyRec s.length) ind)
    (ne_div_of_good ((goodRec_tyN (s.length + 1)).ann ind) (Nat.lt_succ_self _))

/-! ### Expressions -/

section
variable {R S : ExprRec} (h : ∀ ind, Le (R ind) (S ind)) (ind : Nat)
include h

theorem le_tuple : Le (tuple R ind) (tuple S ind) := by
  have := h ind; unfold tuple; le_tac
theorem le_list : Le (list R ind) (list S ind) := by
  have := h ind; unfold list; le_tac
theorem le_record : Le (record R ind) (record S ind) := by
  have := h ind; unfold record recordField; le_tac
theorem le_recordUpdate : Le (recordUpdate R ind) (recordUpdate S ind) := by
  have := h ind; unfold recordUpdate updateField; le_tac
theorem le_parens : Le (parens R ind) (parens S ind) := by
  have := h ind; unfold parens; le_tac
theorem le_termF : Le (termF R ind) (termF S ind) := by
  have h1 := le_tuple h ind
  have h2 := le_list h ind
  have h3 := le_record h ind
  have h4 := le_recordUpdate h ind
  have h5 := le_parens h ind
  unfold termF; le_tac
theorem le_lambda : Le (lambda R ind) (lambda S ind) := by
  have h1 := le_termF h ind
  unfold lambda; le_tac
  exact h _
theorem le_applicationOrVar : Le (applicationOrVar R ind) (applicationOrVar S ind) := by
  have h1 := le_termF h ind
  unfold applicationOrVar; le_tac
theorem le_functionDefinitionF : Le (functionDefinitionF R ind) (functionDefinitionF S ind) := by
  have h1 := le_termF h ind
  unfold functionDefinitionF; le_tac
  exact h _
theorem le_functionF : Le (functionF R ind) (functionF S ind) := by
  have h1 := le_functionDefinitionF h ind
  unfold functionF; le_tac
theorem le_letEntry : Le (letEntry R ind) (letEntry S ind) := by
  have h1 := le_functionF h ind
  have h2 := le_tuple h ind
  have h3 := le_list h ind
  unfold letEntry letBinding letBindingTarget; le_tac
  exact h _
theorem le_letExpression : Le (letExpression R ind) (letExpression S ind) := by
  have h1 := le_letEntry h
  have h2 := h ind
  unfold letExpression letBindings; le_tac
  exact h1 _
theorem le_caseBranch : Le (caseBranch R ind) (caseBranch S ind) := by
  have h2 := h ind
  unfold caseBranch; le_tac
  exact h _
theorem le_caseExpression : Le (caseExpression R ind) (caseExpression S ind) := by
  have h1 := le_caseBranch h
  have h2 := h ind
  unfold caseExpression casesP; le_tac
  exact h1 _
theorem le_ifExpression : Le (ifExpression R ind) (ifExpression S ind) := by
  have h2 := h ind
  unfold ifExpression; le_tac
  all_goals exact h _
theorem le_binary : Le (binary R ind) (binary S ind) := by
  have h1 := le_applicationOrVar h ind
  have h2 := h ind
  unfold binary binaryTail; le_tac
theorem le_expressionF : Le (expressionF R ind) (expressionF S ind) := by
  have h1 := le_binary h ind
  have h2 := le_letExpression h ind
  have h3 := le_caseExpression h ind
  have h4 := le_ifExpression h ind
  have h5 := le_lambda h ind
  unfold expressionF; le_tac
end

theorem exprLe_succ (n ind : Nat) : Le (exprN n ind) (exprN (n + 1) ind) := by
  induction n generalizing ind with
  | zero => exact fun _ => .inl rfl
  | succ n ih => exact le_expressionF ih ind

theorem exprLe_le {n m : Nat} (h : n ≤ m) (ind : Nat) : Le (exprN n ind) (exprN m ind) := by
  induction h with
  | refl => exact Le.refl _
  | step _ ih => exact ih.trans (exprLe_succ _ ind)

theorem exprLe_expression (n ind : Nat) : Le (exprN n ind) (expression ind) := by
  intro s
  rw [expression_apply]
  rcases Nat.le_total n (s.length + 1) with h | h
  · exact exprLe_le h ind s
  · exact .inr (le_eq (exprLe_le h ind)
      (ne_div_of_good (good_exprN _ ind) (Nat.lt_succ_self _))).symm

theorem expression_unfold (ind : Nat) : expression ind = expressionF expression ind := by
  funext s
  rw [expression_apply]
  exact le_eq (le_expressionF (exprLe_expression s.length) ind)
    (ne_div_of_good (good_exprN (s.length + 1) ind) (Nat.lt_succ_self _))

/-- Any budget larger than the input gives the same answer. -/
theorem exprN_eq_expression {n : Nat} (ind : Nat) {s : Str} (h : s.length < n) :
    exprN n ind s = expression ind s :=
  le_eq (exprLe_expression n ind) (ne_div_of_good (good_exprN n ind) h)

end ElmParser
