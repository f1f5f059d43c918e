import Verif.Model.Trace
import Verif.Proofs.Unfold

/-! The parser with events: without the events it is the parser of the model, and it satisfies the recursive equation
of the source. -/
namespace ElmParser.Trace

@[inherit_doc] local infixr:20 " </> " => alt

variable {α β γ δ : Type}

/-! ### Leaving out the events -/

/-- `p` without the events is `q`. -/
def Er (p : TP α) (q : Parser α) : Prop := ∀ s, (p s).1 = q s

theorem er_free (p : Parser α) : Er (free p) p := fun _ => rfl
theorem er_pure (v : α) : Er (pure v) (pure v) := fun _ => rfl

theorem er_andThen {x : Res α × List Event} {f : α → TP β} {g : α → Str → Res β} (hf : ∀ v s, (f v s).1 = g v s) :
    (andThen x f).1 = x.1.andThen g := by
  obtain ⟨x, n⟩ := x
  cases x with
  | ok v r => exact hf v r
  | err => rfl
  | panic => rfl
  | div => rfl

theorem er_bind {p : TP α} {q : Parser α} {f : α → TP β} {g : α → Parser β} (h : Er p q) (hf : ∀ v, Er (f v) (g v)) :
    Er (p >>= f) (q >>= g) := fun s => by
  rw [bind_apply, ← h s]
  exact er_andThen hf

theorem er_alt {p p' : TP α} {q q' : Parser α} (h : Er p q) (h' : Er p' q') : Er (p </> p') (ElmParser.alt q q') := fun s => by
  rw [alt_apply, ← h s, ← h' s]
  unfold alt
  cases hp : p s with
  | mk x n => cases x <;> rfl

theorem er_pmap {p : TP α} {q : Parser α} {f : α → β} (h : Er p q) : Er (pmap p f) (ElmParser.pmap q f) :=
  er_bind h fun _ => er_pure _
theorem er_opt {p : TP α} {q : Parser α} (h : Er p q) : Er (opt p) (ElmParser.opt q) := er_alt (er_pmap h) (er_pure _)
theorem er_preceded {p : TP α} {q : Parser α} {p' : TP β} {q' : Parser β} (h : Er p q) (h' : Er p' q') :
    Er (preceded p p') (ElmParser.preceded q q') := er_bind h fun _ => h'
theorem er_terminated {p : TP α} {q : Parser α} {p' : TP β} {q' : Parser β} (h : Er p q) (h' : Er p' q') :
    Er (terminated p p') (ElmParser.terminated q q') := er_bind h fun _ => er_bind h' fun _ => er_pure _
theorem er_delimited {p : TP α} {q : Parser α} {p' : TP β} {q' : Parser β} {p'' : TP γ} {q'' : Parser γ} (h : Er p q)
    (h' : Er p' q') (h'' : Er p'' q'') : Er (delimited p p' p'') (ElmParser.delimited q q' q'') :=
  er_bind h fun _ => er_bind h' fun _ => er_bind h'' fun _ => er_pure _
theorem er_separatedPair {p : TP α} {q : Parser α} {p' : TP β} {q' : Parser β} {p'' : TP γ} {q'' : Parser γ} (h : Er p q)
    (h' : Er p' q') (h'' : Er p'' q'') : Er (separatedPair p p' p'') (ElmParser.separatedPair q q' q'') :=
  er_bind h fun _ => er_bind h' fun _ => er_bind h'' fun _ => er_pure _

theorem er_cons {p : TP (List α)} {q : Parser (List α)} (h : Er p q) (v : α) (s : Str) :
    ((p >>= fun vs => pure (v :: vs) : TP (List α)) s).1 = (q s).andThen fun vs r => .ok (v :: vs) r := by
  rw [← h s]
  exact er_andThen fun _ _ => rfl

theorem er_many0Loop {p : TP α} {q : Parser α} (h : Er p q) (n : Nat) : Er (many0Loop p n) (ElmParser.many0Loop q n) := by
  induction n with
  | zero => exact er_free _
  | succ n ih =>
    intro s
    simp only [many0Loop, ElmParser.many0Loop]
    rw [← h s]
    cases p s with
    | mk x k =>
      cases x with
      | ok v r =>
        simp only
        split
        · rfl
        · exact er_cons ih v r
      | err => rfl
      | panic => rfl
      | div => rfl

theorem er_many0 {p : TP α} {q : Parser α} (h : Er p q) : Er (many0 p) (ElmParser.many0 q) :=
  fun s => er_many0Loop h (s.length + 1) s

theorem er_sepLoop {p : TP α} {q : Parser α} {sep : TP β} {sep' : Parser β} (hs : Er sep sep') (h : Er p q) (n : Nat) :
    Er (sepLoop sep p n) (ElmParser.sepLoop sep' q n) := by
  induction n with
  | zero => exact er_free _
  | succ n ih =>
    intro s
    simp only [sepLoop, ElmParser.sepLoop]
    rw [← hs s]
    cases sep s with
    | mk x k =>
      cases x with
      | ok v s2 =>
        simp only
        split
        · rfl
        · rw [← h s2]
          cases p s2 with
          | mk x l =>
            cases x with
            | ok v r =>
              simp only
              split
              · rfl
              · exact er_cons ih v r
            | err => rfl
            | panic => rfl
            | div => rfl
      | err => rfl
      | panic => rfl
      | div => rfl

theorem er_sepNonemptyList {p : TP α} {q : Parser α} {sep : TP β} {sep' : Parser β} (hs : Er sep sep') (h : Er p q) :
    Er (sepNonemptyList sep p) (ElmParser.sepNonemptyList sep' q) := fun s => by
  unfold sepNonemptyList ElmParser.sepNonemptyList
  rw [← h s]
  refine er_andThen fun v r => ?_
  split
  · rfl
  · exact er_cons (er_sepLoop hs h _) v r

theorem er_sepList {p : TP α} {q : Parser α} {sep : TP β} {sep' : Parser β} (hs : Er sep sep') (h : Er p q) :
    Er (sepList sep p) (ElmParser.sepList sep' q) := fun s => by
  unfold sepList ElmParser.sepList
  rw [← h s]
  cases p s with
  | mk x k =>
    cases x with
    | ok v r =>
      simp only
      split
      · rfl
      · exact er_cons (er_sepLoop hs h _) v r
    | err => rfl
    | panic => rfl
    | div => rfl

/-- Structural proof that a parser without the events is another. -/
macro "er_tac" : tactic => `(tactic| repeat' first
  | with_reducible exact er_free _
  | with_reducible exact er_pure _
  | assumption
  | with_reducible apply er_alt
  | with_reducible apply er_pmap
  | with_reducible apply er_opt
  | with_reducible apply er_preceded
  | with_reducible apply er_terminated
  | with_reducible apply er_delimited
  | with_reducible apply er_separatedPair
  | with_reducible apply er_many0
  | with_reducible apply er_sepNonemptyList
  | with_reducible apply er_sepList
  | with_reducible refine er_bind ?_ fun _ => ?_)

theorem er_hexChar : Er hexChar ElmParser.hexChar := by
  unfold hexChar ElmParser.hexChar ElmParser.mapRes
  refine er_bind (er_free _) fun r => ?_
  intro s
  cases r <;> rfl
theorem er_character : Er character ElmParser.character := by
  have := er_hexChar
  unfold character characterContent ElmParser.character ElmParser.characterContent; er_tac

theorem er_mark {p : TP α} {q : Parser α} (e : Event) (h : Er p q) : Er (mark e p) q := h

/-- Both entry points. -/
structure TyEr (R : TyTRec) (S : TyRec) : Prop where
  ty : ∀ ind, Er (R.type_ ind) (S.type_ ind)
  ann : ∀ ind, Er (R.typeAnnotation ind) (S.typeAnnotation ind)

section
variable {R : TyTRec} {S : TyRec} (h : TyEr R S) (ind : Nat)
include h

theorem er_typeTuple : Er (typeTuple R ind) (ElmParser.typeTuple S ind) := by
  have := h.ty ind; unfold typeTuple ElmParser.typeTuple; er_tac
theorem er_typeRecordPairs : Er (typeRecordPairs R ind) (ElmParser.typeRecordPairs S ind) := by
  have := h.ann ind
  unfold typeRecordPairs typeRecordPair ElmParser.typeRecordPairs ElmParser.typeRecordPair; er_tac
theorem er_typeRecordConstructor : Er (typeRecordConstructor R ind) (ElmParser.typeRecordConstructor S ind) := by
  have := er_typeRecordPairs h ind
  unfold typeRecordConstructor ElmParser.typeRecordConstructor; er_tac
theorem er_typeRecord : Er (typeRecord R ind) (ElmParser.typeRecord S ind) := by
  have := er_typeRecordPairs h ind
  unfold typeRecord ElmParser.typeRecord; er_tac
theorem er_typeParens : Er (typeParens R ind) (ElmParser.typeParens S ind) := by
  have := h.ann ind; unfold typeParens ElmParser.typeParens; er_tac
theorem er_typeParameter : Er (typeParameter R ind) (ElmParser.typeParameter S ind) := by
  have h1 := er_typeTuple h ind
  have h2 := er_typeRecordConstructor h ind
  have h3 := er_typeRecord h ind
  have h4 := er_typeParens h ind
  unfold typeParameter ElmParser.typeParameter; er_tac
theorem er_typeArg : Er (typeArg R ind) (ElmParser.typeArg S ind) := by
  unfold typeArg ElmParser.typeArg; er_tac
  exact er_typeParameter h _
theorem er_typeConstructorF : Er (typeConstructorF R ind) (ElmParser.typeConstructorF S ind) := by
  have h1 := er_typeArg h ind
  unfold typeConstructorF ElmParser.typeConstructorF; er_tac
theorem er_typeF : Er (typeF R ind) (ElmParser.typeF S ind) := by
  have h0 := er_typeConstructorF h ind
  have h1 := er_typeTuple h ind
  have h2 := er_typeRecordConstructor h ind
  have h3 := er_typeRecord h ind
  have h4 := er_typeParens h ind
  unfold typeF ElmParser.typeF
  apply er_mark
  er_tac
theorem er_typeAnnotationF : Er (typeAnnotationF R ind) (ElmParser.typeAnnotationF S ind) := by
  unfold typeAnnotationF ElmParser.typeAnnotationF
  refine er_bind (er_sepNonemptyList (er_free _) (er_typeF h ind)) fun v => ?_
  split
  · exact er_free _
  · split
    · exact er_free _
    · generalize buildArrows v.reverse = o
      cases o
      · exact er_free _
      · exact er_pure _
end

theorem er_tyN (n : Nat) : TyEr (tyN n) (ElmParser.tyN n) := by
  induction n with
  | zero => exact ⟨fun _ => er_free _, fun _ => er_free _⟩
  | succ n ih => exact ⟨er_typeF ih, er_typeAnnotationF ih⟩

theorem er_tyRec : TyEr tyRec ElmParser.tyRec where
  ty ind s := by
    show ((tyN (s.length + 1)).type_ ind s).1 = (ElmParser.tyN (s.length + 1)).type_ ind s
    exact (er_tyN _).ty ind s
  ann ind s := by
    show ((tyN (s.length + 1)).typeAnnotation ind s).1 = (ElmParser.tyN (s.length + 1)).typeAnnotation ind s
    exact (er_tyN _).ann ind s

theorem er_type (ind : Nat) : Er (type_ ind) (ElmParser.type_ ind) := er_tyRec.ty ind
theorem er_typeAnnotation (ind : Nat) : Er (typeAnnotation ind) (ElmParser.typeAnnotation ind) := er_tyRec.ann ind
theorem er_typeConstructor (ind : Nat) : Er (typeConstructor ind) (ElmParser.typeConstructor ind) :=
  er_typeConstructorF er_tyRec ind
theorem er_functionSignature (ind : Nat) : Er (functionSignature ind) (ElmParser.functionSignature ind) := by
  unfold functionSignature ElmParser.functionSignature; er_tac
  exact er_typeAnnotation _

section
variable {R : TRec} {S : ExprRec} (h : ∀ ind, Er (R ind) (S ind)) (ind : Nat)
include h

theorem er_tuple : Er (tuple R ind) (ElmParser.tuple S ind) := by
  have := h ind; unfold tuple ElmParser.tuple; er_tac
theorem er_list : Er (list R ind) (ElmParser.list S ind) := by
  have := h ind; unfold list ElmParser.list; er_tac
theorem er_record : Er (record R ind) (ElmParser.record S ind) := by
  have := h ind; unfold record recordField ElmParser.record ElmParser.recordField; er_tac
theorem er_recordUpdate : Er (recordUpdate R ind) (ElmParser.recordUpdate S ind) := by
  have := h ind; unfold recordUpdate updateField ElmParser.recordUpdate ElmParser.updateField; er_tac
theorem er_parens : Er (parens R ind) (ElmParser.parens S ind) := by
  have := h ind; unfold parens ElmParser.parens; er_tac
theorem er_termF : Er (termF R ind) (ElmParser.termF S ind) := by
  have h1 := er_tuple h ind
  have h2 := er_list h ind
  have h3 := er_record h ind
  have h4 := er_recordUpdate h ind
  have h5 := er_parens h ind
  have h6 := er_character
  unfold termF ElmParser.termF; er_tac
theorem er_lambda : Er (lambda R ind) (ElmParser.lambda S ind) := by
  have h1 := er_termF h ind
  unfold lambda ElmParser.lambda; er_tac
  exact h _
theorem er_applicationOrVar : Er (applicationOrVar R ind) (ElmParser.applicationOrVar S ind) := by
  have h1 := er_termF h ind
  unfold applicationOrVar ElmParser.applicationOrVar
  refine er_bind (er_sepList (er_free _) h1) fun v => ?_
  split
  · exact er_free _
  · split
    · exact er_free _
    · er_tac
theorem er_functionDefinitionF : Er (functionDefinitionF R ind) (ElmParser.functionDefinitionF S ind) := by
  have h1 := er_termF h ind
  unfold functionDefinitionF ElmParser.functionDefinitionF; er_tac
  exact h _
theorem er_functionF : Er (functionF R ind) (ElmParser.functionF S ind) := by
  have h1 := er_functionDefinitionF h ind
  have h2 := er_functionSignature ind
  unfold functionF ElmParser.functionF; er_tac
theorem er_letEntry : Er (letEntry R ind) (ElmParser.letEntry S ind) := by
  have h1 := er_functionF h ind
  have h2 := er_tuple h ind
  have h3 := er_list h ind
  unfold letEntry letBinding letBindingTarget ElmParser.letEntry ElmParser.letBinding ElmParser.letBindingTarget; er_tac
  exact h _
theorem er_letExpression : Er (letExpression R ind) (ElmParser.letExpression S ind) := by
  have h1 := er_letEntry h
  have h2 := h ind
  unfold letExpression letBindings ElmParser.letExpression ElmParser.letBindings; er_tac
  exact h1 _
theorem er_caseBranch : Er (caseBranch R ind) (ElmParser.caseBranch S ind) := by
  have h2 := h ind
  unfold caseBranch ElmParser.caseBranch; er_tac
  exact h _
theorem er_caseExpression : Er (caseExpression R ind) (ElmParser.caseExpression S ind) := by
  have h1 := er_caseBranch h
  have h2 := h ind
  unfold caseExpression casesP ElmParser.caseExpression ElmParser.casesP; er_tac
  exact h1 _
theorem er_ifExpression : Er (ifExpression R ind) (ElmParser.ifExpression S ind) := by
  have h2 := h ind
  unfold ifExpression ElmParser.ifExpression; er_tac
  all_goals exact h _
theorem er_binary : Er (binary R ind) (ElmParser.binary S ind) := by
  have h1 := er_applicationOrVar h ind
  have h2 := h ind
  unfold binary binaryTail ElmParser.binary ElmParser.binaryTail; er_tac
  exact er_pure _
theorem er_expressionF : Er (expressionF R ind) (ElmParser.expressionF S ind) := by
  have h1 := er_binary h ind
  have h2 := er_letExpression h ind
  have h3 := er_caseExpression h ind
  have h4 := er_ifExpression h ind
  have h5 := er_lambda h ind
  unfold expressionF ElmParser.expressionF; er_tac
end

theorem er_exprN (n ind : Nat) : Er (exprN n ind) (ElmParser.exprN n ind) := by
  induction n generalizing ind with
  | zero => exact er_free _
  | succ n ih => exact fun s => er_expressionF ih ind s

theorem er_expression (ind : Nat) : Er (expression ind) (ElmParser.expression ind) :=
  fun s => er_exprN (s.length + 1) ind s

theorem er_term (ind : Nat) : Er (term ind) (ElmParser.term ind) := er_termF er_expression ind
theorem er_function (ind : Nat) : Er (function ind) (ElmParser.function ind) := er_functionF er_expression ind

theorem er_typeAliasDeclaration : Er typeAliasDeclaration ElmParser.typeAliasDeclaration := by
  have h1 := er_type 0
  have h2 := er_typeAnnotation 1
  unfold typeAliasDeclaration ElmParser.typeAliasDeclaration; er_tac
theorem er_typeDeclaration (ind : Nat) : Er (typeDeclaration ind) (ElmParser.typeDeclaration ind) := by
  have h1 := er_type ind
  unfold typeDeclaration ElmParser.typeDeclaration; er_tac
  exact er_typeConstructor _
theorem er_portTypeDeclaration : Er portTypeDeclaration ElmParser.portTypeDeclaration := by
  unfold portTypeDeclaration ElmParser.portTypeDeclaration; er_tac
  exact er_typeAnnotation _
theorem er_portDeclaration : Er portDeclaration ElmParser.portDeclaration := by
  unfold portDeclaration ElmParser.portDeclaration; er_tac
  exact er_expression _
theorem er_statement : Er statement ElmParser.statement := by
  have h1 := er_portDeclaration
  have h2 := er_function 0
  have h3 := er_typeAliasDeclaration
  have h4 := er_typeDeclaration 0
  have h5 := er_portTypeDeclaration
  unfold statement ElmParser.statement; er_tac
theorem er_statements : Er statements ElmParser.statements := by
  have h1 := er_statement
  unfold statements ElmParser.statements; er_tac
theorem er_file : Er file ElmParser.file := by
  have h1 := er_statements
  unfold file ElmParser.file; er_tac

/-! ### The budget does not matter -/

/-- `q` gives what `p` gives, with the same events, unless `p` ran out of budget. -/
def Le (p q : TP α) : Prop := ∀ s, (p s).1 = .div ∨ p s = q s

theorem Le.refl (p : TP α) : Le p p := fun _ => .inr rfl
theorem Le.trans {p q r : TP α} (h : Le p q) (g : Le q r) : Le p r := fun s => by
  rcases h s with h | h
  · exact .inl h
  · rw [h]; exact g s

theorem le_andThen {x y : Res α × List Event} {f g : α → TP β} (h : x.1 = .div ∨ x = y) (hf : ∀ v, Le (f v) (g v)) :
    (andThen x f).1 = .div ∨ andThen x f = andThen y g := by
  rcases h with h | rfl
  · obtain ⟨x, n⟩ := x
    cases h
    exact .inl rfl
  · obtain ⟨x, n⟩ := x
    cases x with
    | ok v r =>
      rcases hf v r with h | h
      · exact .inl h
      · exact .inr (by simp only [andThen, h])
    | err => exact .inr rfl
    | panic => exact .inr rfl
    | div => exact .inr rfl

theorem le_bind {p q : TP α} {f g : α → TP β} (h : Le p q) (hf : ∀ v, Le (f v) (g v)) : Le (p >>= f) (q >>= g) :=
  fun s => le_andThen (h s) hf

theorem le_alt {p q p' q' : TP α} (h : Le p q) (h' : Le p' q') : Le (p </> p') (q </> q') := fun s => by
  unfold alt
  rcases h s with h | h
  · left
    cases hp : p s with
    | mk x n => rw [hp] at h; cases h; rfl
  · rw [← h]
    cases p s with
    | mk x n =>
      cases x with
      | err =>
        rcases h' s with h | h
        · exact .inl h
        · exact .inr (by simp only [h])
      | ok v r => exact .inr rfl
      | panic => exact .inr rfl
      | div => exact .inr rfl

theorem le_pmap {p q : TP α} {f : α → β} (h : Le p q) : Le (pmap p f) (pmap q f) := le_bind h fun _ => Le.refl _
theorem le_opt {p q : TP α} (h : Le p q) : Le (opt p) (opt q) := le_alt (le_pmap h) (Le.refl _)
theorem le_preceded {p q : TP α} {p' q' : TP β} (h : Le p q) (h' : Le p' q') : Le (preceded p p') (preceded q q') :=
  le_bind h fun _ => h'
theorem le_terminated {p q : TP α} {p' q' : TP β} (h : Le p q) (h' : Le p' q') :
    Le (terminated p p') (terminated q q') := le_bind h fun _ => le_bind h' fun _ => Le.refl _
theorem le_delimited {p q : TP α} {p' q' : TP β} {p'' q'' : TP γ} (h : Le p q) (h' : Le p' q') (h'' : Le p'' q'') :
    Le (delimited p p' p'') (delimited q q' q'') :=
  le_bind h fun _ => le_bind h' fun _ => le_bind h'' fun _ => Le.refl _
theorem le_separatedPair {p q : TP α} {p' q' : TP β} {p'' q'' : TP γ} (h : Le p q) (h' : Le p' q') (h'' : Le p'' q'') :
    Le (separatedPair p p' p'') (separatedPair q q' q'') :=
  le_bind h fun _ => le_bind h' fun _ => le_bind h'' fun _ => Le.refl _

theorem le_many0Loop {p q : TP α} (h : Le p q) (n : Nat) : Le (many0Loop p n) (many0Loop q n) := by
  induction n with
  | zero => exact Le.refl _
  | succ n ih =>
    intro s
    simp only [many0Loop]
    rcases h s with h | h
    · left
      cases hp : p s with
      | mk x n => rw [hp] at h; cases h; rfl
    · rw [← h]
      cases p s with
      | mk x k =>
        cases x with
        | ok v r =>
          simp only
          split
          · exact .inr rfl
          · exact le_andThen (.inr rfl) fun _ => le_bind ih fun _ => Le.refl _
        | err => exact .inr rfl
        | panic => exact .inr rfl
        | div => exact .inr rfl

theorem le_many0 {p q : TP α} (h : Le p q) : Le (many0 p) (many0 q) := fun s => le_many0Loop h (s.length + 1) s

theorem le_sepLoop {p q : TP α} (sep : TP β) (h : Le p q) (n : Nat) : Le (sepLoop sep p n) (sepLoop sep q n) := by
  induction n with
  | zero => exact Le.refl _
  | succ n ih =>
    intro s
    simp only [sepLoop]
    cases sep s with
    | mk x k =>
      cases x with
      | ok w s2 =>
        simp only
        split
        · exact .inr rfl
        · rcases h s2 with h | h
          · left
            cases hp : p s2 with
            | mk x n => rw [hp] at h; cases h; rfl
          · rw [← h]
            cases p s2 with
            | mk x l =>
              cases x with
              | ok v r =>
                simp only
                split
                · exact .inr rfl
                · exact le_andThen (.inr rfl) fun _ => le_bind ih fun _ => Le.refl _
              | err => exact .inr rfl
              | panic => exact .inr rfl
              | div => exact .inr rfl
      | err => exact .inr rfl
      | panic => exact .inr rfl
      | div => exact .inr rfl

theorem le_sepNonemptyList {p q : TP α} (sep : TP β) (h : Le p q) :
    Le (sepNonemptyList sep p) (sepNonemptyList sep q) := fun s => by
  unfold sepNonemptyList
  refine le_andThen (h s) fun v r => ?_
  split
  · exact .inr rfl
  · exact le_bind (le_sepLoop sep h _) (fun _ => Le.refl _) r

theorem le_sepList {p q : TP α} (sep : TP β) (h : Le p q) : Le (sepList sep p) (sepList sep q) := fun s => by
  unfold sepList
  rcases h s with e | e
  · left
    cases hp : p s with
    | mk x n => rw [hp] at e; cases e; rfl
  · rw [← e]
    cases p s with
    | mk x k =>
      cases x with
      | ok v r =>
        simp only
        split
        · exact .inr rfl
        · exact le_andThen (.inr rfl) fun _ => le_bind (le_sepLoop sep h _) fun _ => Le.refl _
      | err => exact .inr rfl
      | panic => exact .inr rfl
      | div => exact .inr rfl

/-- Structural proof that a parser is monotone in the parsers it uses. -/
macro "cle_tac" : tactic => `(tactic| repeat' first
  | with_reducible exact Le.refl _
  | assumption
  | with_reducible apply le_alt
  | with_reducible apply le_pmap
  | with_reducible apply le_opt
  | with_reducible apply le_preceded
  | with_reducible apply le_terminated
  | with_reducible apply le_delimited
  | with_reducible apply le_separatedPair
  | with_reducible apply le_many0
  | with_reducible apply le_sepNonemptyList
  | with_reducible apply le_sepList
  | with_reducible refine le_bind ?_ fun _ => ?_)

theorem le_mark {p q : TP α} (e : Event) (h : Le p q) : Le (mark e p) (mark e q) := fun s => by
  rcases h s with e | e
  · exact .inl e
  · exact .inr (by simp only [mark, e])

/-- Both entry points. -/
structure TyLe (R S : TyTRec) : Prop where
  ty : ∀ ind, Le (R.type_ ind) (S.type_ ind)
  ann : ∀ ind, Le (R.typeAnnotation ind) (S.typeAnnotation ind)

section
variable {R S : TyTRec} (h : TyLe R S) (ind : Nat)
include h

theorem le_typeTuple : Le (typeTuple R ind) (typeTuple S ind) := by
  have := h.ty ind; unfold typeTuple; cle_tac
theorem le_typeRecordPairs : Le (typeRecordPairs R ind) (typeRecordPairs S ind) := by
  have := h.ann ind
  unfold typeRecordPairs typeRecordPair; cle_tac
theorem le_typeRecordConstructor : Le (typeRecordConstructor R ind) (typeRecordConstructor S ind) := by
  have := le_typeRecordPairs h ind
  unfold typeRecordConstructor; cle_tac
theorem le_typeRecord : Le (typeRecord R ind) (typeRecord S ind) := by
  have := le_typeRecordPairs h ind
  unfold typeRecord; cle_tac
theorem le_typeParens : Le (typeParens R ind) (typeParens S ind) := by
  have := h.ann ind; unfold typeParens; cle_tac
theorem le_typeParameter : Le (typeParameter R ind) (typeParameter S ind) := by
  have h1 := le_typeTuple h ind
  have h2 := le_typeRecordConstructor h ind
  have h3 := le_typeRecord h ind
  have h4 := le_typeParens h ind
  unfold typeParameter; cle_tac
theorem le_typeArg : Le (typeArg R ind) (typeArg S ind) := by
  unfold typeArg; cle_tac
  exact le_typeParameter h _
theorem le_typeConstructorF : Le (typeConstructorF R ind) (typeConstructorF S ind) := by
  have h1 := le_typeArg h ind
  unfold typeConstructorF; cle_tac
theorem le_typeF : Le (typeF R ind) (typeF S ind) := by
  have h0 := le_typeConstructorF h ind
  have h1 := le_typeTuple h ind
  have h2 := le_typeRecordConstructor h ind
  have h3 := le_typeRecord h ind
  have h4 := le_typeParens h ind
  unfold typeF
  apply le_mark
  cle_tac
theorem le_typeAnnotationF : Le (typeAnnotationF R ind) (typeAnnotationF S ind) := by
  have h0 := le_typeF h ind
  unfold typeAnnotationF; cle_tac
end

theorem tyLe_succ (n : Nat) : TyLe (tyN n) (tyN (n + 1)) := by
  induction n with
  | zero => exact ⟨fun _ _ => .inl rfl, fun _ _ => .inl rfl⟩
  | succ n ih => exact ⟨le_typeF ih, le_typeAnnotationF ih⟩

theorem tyLe_le {n m : Nat} (h : n ≤ m) : TyLe (tyN n) (tyN m) := by
  induction h with
  | refl => exact ⟨fun _ => Le.refl _, fun _ => Le.refl _⟩
  | step _ ih => exact ⟨fun i => (ih.ty i).trans ((tyLe_succ _).ty i), fun i => (ih.ann i).trans ((tyLe_succ _).ann i)⟩

theorem tyN_ne_div {n : Nat} (ind : Nat) {s : Str} (h : s.length < n) :
    ((tyN n).type_ ind s).1 ≠ .div ∧ ((tyN n).typeAnnotation ind s).1 ≠ .div := by
  rw [(er_tyN n).ty ind s, (er_tyN n).ann ind s]
  exact ⟨ne_div_of_good ((goodRec_tyN _).ty ind) h, ne_div_of_good ((goodRec_tyN _).ann ind) h⟩

theorem tyLe_tyRec (n : Nat) : TyLe (tyN n) tyRec := by
  constructor
  · intro ind s
    show _ ∨ _ = (tyN (s.length + 1)).type_ ind s
    rcases Nat.le_total n (s.length + 1) with h | h
    · exact (tyLe_le h).ty ind s
    · exact .inr (((tyLe_le h).ty ind s).resolve_left (tyN_ne_div ind (Nat.lt_succ_self _)).1).symm
  · intro ind s
    show _ ∨ _ = (tyN (s.length + 1)).typeAnnotation ind s
    rcases Nat.le_total n (s.length + 1) with h | h
    · exact (tyLe_le h).ann ind s
    · exact .inr (((tyLe_le h).ann ind s).resolve_left (tyN_ne_div ind (Nat.lt_succ_self _)).2).symm

theorem type_unfold (ind : Nat) : type_ ind = typeF tyRec ind := by
  funext s
  exact (le_typeF (tyLe_tyRec s.length) ind s).resolve_left (tyN_ne_div (n := s.length + 1) ind (Nat.lt_succ_self _)).1

theorem typeAnnotation_unfold (ind : Nat) : typeAnnotation ind = typeAnnotationF tyRec ind := by
  funext s
  exact (le_typeAnnotationF (tyLe_tyRec s.length) ind s).resolve_left
    (tyN_ne_div (n := s.length + 1) ind (Nat.lt_succ_self _)).2

section
variable {R S : TRec} (h : ∀ ind, Le (R ind) (S ind)) (ind : Nat)
include h

theorem le_tuple : Le (tuple R ind) (tuple S ind) := by
  have := h ind; unfold tuple; cle_tac
theorem le_list : Le (list R ind) (list S ind) := by
  have := h ind; unfold list; cle_tac
theorem le_record : Le (record R ind) (record S ind) := by
  have := h ind; unfold record recordField; cle_tac
theorem le_recordUpdate : Le (recordUpdate R ind) (recordUpdate S ind) := by
  have := h ind; unfold recordUpdate updateField; cle_tac
theorem le_parens : Le (parens R ind) (parens S ind) := by
  have := h ind; unfold parens; cle_tac
theorem le_termF : Le (termF R ind) (termF S ind) := by
  have h1 := le_tuple h ind
  have h2 := le_list h ind
  have h3 := le_record h ind
  have h4 := le_recordUpdate h ind
  have h5 := le_parens h ind
  unfold termF; cle_tac
theorem le_lambda : Le (lambda R ind) (lambda S ind) := by
  have h1 := le_termF h ind
  unfold lambda; cle_tac
  exact h _
theorem le_applicationOrVar : Le (applicationOrVar R ind) (applicationOrVar S ind) := by
  have h1 := le_termF h ind
  unfold applicationOrVar; cle_tac
theorem le_functionDefinitionF : Le (functionDefinitionF R ind) (functionDefinitionF S ind) := by
  have h1 := le_termF h ind
  unfold functionDefinitionF; cle_tac
  exact h _
theorem le_functionF : Le (functionF R ind) (functionF S ind) := by
  have h1 := le_functionDefinitionF h ind
  unfold functionF; cle_tac
theorem le_letEntry : Le (letEntry R ind) (letEntry S ind) := by
  have h1 := le_functionF h ind
  have h2 := le_tuple h ind
  have h3 := le_list h ind
  unfold letEntry letBinding letBindingTarget; cle_tac
  exact h _
theorem le_letExpression : Le (letExpression R ind) (letExpression S ind) := by
  have h1 := le_letEntry h
  have h2 := h ind
  unfold letExpression letBindings; cle_tac
  exact h1 _
theorem le_caseBranch : Le (caseBranch R ind) (caseBranch S ind) := by
  have h2 := h ind
  unfold caseBranch; cle_tac
  exact h _
theorem le_caseExpression : Le (caseExpression R ind) (caseExpression S ind) := by
  have h1 := le_caseBranch h
  have h2 := h ind
  unfold caseExpression casesP; cle_tac
  exact h1 _
theorem le_ifExpression : Le (ifExpression R ind) (ifExpression S ind) := by
  have h2 := h ind
  unfold ifExpression; cle_tac
  all_goals exact h _
theorem le_binary : Le (binary R ind) (binary S ind) := by
  have h1 := le_applicationOrVar h ind
  have h2 := h ind
  unfold binary binaryTail; cle_tac
theorem le_expressionF : Le (expressionF R ind) (expressionF S ind) := by
  have h1 := le_binary h ind
  have h2 := le_letExpression h ind
  have h3 := le_caseExpression h ind
  have h4 := le_ifExpression h ind
  have h5 := le_lambda h ind
  unfold expressionF; cle_tac
end


theorem exprLe_succ (n ind : Nat) : Le (exprN n ind) (exprN (n + 1) ind) := by
  induction n generalizing ind with
  | zero => exact fun _ => .inl rfl
  | succ n ih => exact le_mark _ (le_expressionF ih ind)

theorem exprLe_le {n m : Nat} (h : n ≤ m) (ind : Nat) : Le (exprN n ind) (exprN m ind) := by
  induction h with
  | refl => exact Le.refl _
  | step _ ih => exact ih.trans (exprLe_succ _ ind)

theorem exprN_ne_div {n : Nat} (ind : Nat) {s : Str} (h : s.length < n) : (exprN n ind s).1 ≠ .div := by
  rw [er_exprN n ind s]
  exact ne_div_of_good (good_exprN n ind) h

theorem exprLe_expression (n ind : Nat) : Le (exprN n ind) (expression ind) := by
  intro s
  show _ ∨ _ = exprN (s.length + 1) ind s
  rcases Nat.le_total n (s.length + 1) with h | h
  · exact exprLe_le h ind s
  · exact .inr ((exprLe_le h ind s).resolve_left (exprN_ne_div ind (Nat.lt_succ_self _))).symm

theorem expression_unfold (ind : Nat) : expression ind = mark .call (expressionF expression ind) := by
  funext s
  exact (le_mark _ (le_expressionF (exprLe_expression s.length) ind) s).resolve_left
    (exprN_ne_div (n := s.length + 1) ind (Nat.lt_succ_self _))

end ElmParser.Trace
