import Verif.Proofs.Trace
import Verif.Proofs.Lex

/-! Where the lines come from that the parser prints itself. -/
namespace ElmParser.Trace
open Spec

@[inherit_doc] local infixr:20 " </> " => alt

variable {α β γ δ : Type}

/-- Every line printed on `s` is for a `'\x` of `s`. -/
def Q (s : Str) (e : Event) : Prop := ∀ r, e = .hex r → ∃ a b, ['\'', '\\', 'x', a, b] <:+: s ∧ r = fromHex [a, b]

theorem Q.mono {s t : Str} {e : Event} (h : Q t e) (ht : t <:+ s) : Q s e := fun r hr => by
  obtain ⟨a, b, h1, h2⟩ := h r hr
  exact ⟨a, b, h1.trans ht.isInfix, h2⟩

/-- A result on `s`: its events are for parts of `s`, and it leaves a part of `s`. -/
def Fr (s : Str) (x : Res α × List Event) : Prop := (∀ e ∈ x.2, Q s e) ∧ ∀ v r, x.1 = .ok v r → r <:+ s

/-- A parser all of whose results are such. -/
def Ev (p : TP α) : Prop := ∀ s, Fr s (p s)

theorem Fr.mono {s t : Str} {x : Res α × List Event} (h : Fr t x) (ht : t <:+ s) : Fr s x :=
  ⟨fun e he => (h.1 e he).mono ht, fun v r hr => (h.2 v r hr).trans ht⟩

theorem fr_nil {s : Str} {x : Res α} (h : ∀ v r, x = .ok v r → r <:+ s) : Fr s (x, []) := ⟨by simp, h⟩

theorem fr_of {s : Str} {x : Res α × List Event} (h : Fr s x) {y : Res β} (hy : ∀ v r, y = .ok v r → r <:+ s) : Fr s (y, x.2) :=
  ⟨h.1, hy⟩

theorem fr_append {s : Str} {y : Res γ} {k l : List Event} (hk : ∀ e ∈ k, Q s e) (h : Fr s (y, l)) : Fr s (y, k ++ l) :=
  ⟨fun e he => (List.mem_append.1 he).elim (hk e) (h.1 e), h.2⟩

theorem fr_andThen {s : Str} {x : Res α × List Event} {f : α → TP β} (h : Fr s x) (hf : ∀ v, Ev (f v)) :
    Fr s (andThen x f) := by
  obtain ⟨x, n⟩ := x
  cases x with
  | ok v r => exact fr_append h.1 ((hf v r).mono (h.2 v r rfl))
  | err => exact ⟨h.1, by simp [andThen]⟩
  | panic => exact ⟨h.1, by simp [andThen]⟩
  | div => exact ⟨h.1, by simp [andThen]⟩

theorem ev_free {p : Parser α} (h : ∀ k, Good k p) : Ev (free p) := fun _ => fr_nil fun _ _ e => suffix_of_ok h e
theorem ev_cons {p : Parser α} (h : ∀ k, Cons k p) : Ev (free p) := ev_free fun k => (h k).good
theorem ev_pure (v : α) : Ev (pure v) := fun s => fr_nil fun w r e => by
  cases e; exact List.suffix_refl s
theorem ev_fail : Ev (free (Parser.fail : Parser α)) := fun _ => fr_nil fun _ _ e => by cases e
theorem ev_index (v : List α) (i : Nat) : Ev (free (index v i)) := fun s => fr_nil fun w r e => by
  unfold index at e
  split at e <;> cases e
  exact List.suffix_refl s
theorem ev_div : Ev (free fun _ => (.div : Res α)) := fun _ => fr_nil fun _ _ e => by cases e

theorem ev_bind {p : TP α} {f : α → TP β} (h : Ev p) (hf : ∀ v, Ev (f v)) : Ev (p >>= f) := fun s => fr_andThen (h s) hf

theorem ev_alt {p q : TP α} (h : Ev p) (h' : Ev q) : Ev (p </> q) := fun s => by
  unfold alt
  have := h s
  cases hp : p s with
  | mk x n =>
    rw [hp] at this
    cases x with
    | err => exact fr_append this.1 (h' s)
    | ok v r => exact this
    | panic => exact this
    | div => exact this

theorem ev_pmap {p : TP α} {f : α → β} (h : Ev p) : Ev (pmap p f) := ev_bind h fun _ => ev_pure _
theorem ev_opt {p : TP α} (h : Ev p) : Ev (opt p) := ev_alt (ev_pmap h) (ev_pure _)
theorem ev_preceded {p : TP α} {q : TP β} (h : Ev p) (h' : Ev q) : Ev (preceded p q) := ev_bind h fun _ => h'
theorem ev_terminated {p : TP α} {q : TP β} (h : Ev p) (h' : Ev q) : Ev (terminated p q) :=
  ev_bind h fun _ => ev_bind h' fun _ => ev_pure _
theorem ev_delimited {p : TP α} {q : TP β} {t : TP γ} (h : Ev p) (h' : Ev q) (h'' : Ev t) : Ev (delimited p q t) :=
  ev_bind h fun _ => ev_bind h' fun _ => ev_bind h'' fun _ => ev_pure _
theorem ev_separatedPair {p : TP α} {q : TP β} {t : TP γ} (h : Ev p) (h' : Ev q) (h'' : Ev t) : Ev (separatedPair p q t) :=
  ev_bind h fun _ => ev_bind h' fun _ => ev_bind h'' fun _ => ev_pure _

theorem fr_self {s : Str} {x : Res α × List Event} (h : Fr s x) (v : β) : Fr s (.ok v s, x.2) :=
  fr_of h fun w r e => by cases e; exact List.suffix_refl s

theorem ev_many0Loop {p : TP α} (h : Ev p) (n : Nat) : Ev (many0Loop p n) := by
  induction n with
  | zero => exact ev_div
  | succ n ih =>
    intro s
    simp only [many0Loop]
    have := h s
    cases hp : p s with
    | mk x k =>
      rw [hp] at this
      cases x with
      | ok v r =>
        simp only
        split
        · exact fr_self this _
        · exact fr_andThen this fun v => ev_bind ih fun _ => ev_pure _
      | err => exact fr_self this _
      | panic => exact fr_of this (by simp)
      | div => exact fr_of this (by simp)

theorem ev_many0 {p : TP α} (h : Ev p) : Ev (many0 p) := fun s => ev_many0Loop h (s.length + 1) s

theorem ev_sepLoop {sep : TP β} {p : TP α} (hs : Ev sep) (h : Ev p) (n : Nat) : Ev (sepLoop sep p n) := by
  induction n with
  | zero => exact ev_div
  | succ n ih =>
    intro s
    simp only [sepLoop]
    have h1 := hs s
    cases hp : sep s with
    | mk x k =>
      rw [hp] at h1
      cases x with
      | ok w s2 =>
        simp only
        split
        · exact fr_self h1 _
        · have h2 := (h s2).mono (h1.2 _ _ rfl)
          cases hq : p s2 with
          | mk y l =>
            rw [hq] at h2
            have h3 := fr_append h1.1 h2
            cases y with
            | ok v r =>
              simp only
              split
              · exact fr_self h3 _
              · exact fr_andThen h3 fun v => ev_bind ih fun _ => ev_pure _
            | err => exact fr_self h3 _
            | panic => exact fr_of h3 (by simp)
            | div => exact fr_of h3 (by simp)
      | err => exact fr_self h1 _
      | panic => exact fr_of h1 (by simp)
      | div => exact fr_of h1 (by simp)

theorem ev_sepNonemptyList {sep : TP β} {p : TP α} (hs : Ev sep) (h : Ev p) : Ev (sepNonemptyList sep p) := fun s => by
  unfold sepNonemptyList
  refine fr_andThen (h s) fun v r => ?_
  split
  · exact fr_nil (by simp)
  · exact ev_bind (ev_sepLoop hs h _) (fun _ => ev_pure _) r

theorem ev_sepList {sep : TP β} {p : TP α} (hs : Ev sep) (h : Ev p) : Ev (sepList sep p) := fun s => by
  unfold sepList
  have := h s
  cases hp : p s with
  | mk x k =>
    rw [hp] at this
    cases x with
    | ok v r =>
      simp only
      split
      · exact fr_of this (by simp)
      · exact fr_andThen this fun v => ev_bind (ev_sepLoop hs h _) fun _ => ev_pure _
    | err => exact fr_self this _
    | panic => exact fr_of this (by simp)
    | div => exact fr_of this (by simp)

theorem bind_events {p : TP α} {f : α → TP β} (h : ∀ v s, (f v s).2 = []) (s : Str) : ((p >>= f) s).2 = (p s).2 := by
  show (andThen (p s) f).2 = _
  cases p s with
  | mk x n =>
    cases x with
    | ok v r => simp [andThen, h]
    | err => rfl
    | panic => rfl
    | div => rfl

theorem hexChar_events (a b : Char) (r : Str) : (hexChar ('\\' :: 'x' :: a :: b :: r)).2 = [.hex (fromHex [a, b])] := by
  have h : hexChar ('\\' :: 'x' :: a :: b :: r) = andThen (.ok (fromHex [a, b]) r, []) (fun v => do
      let _ ← emit (.hex v)
      match v.map Char.ofNat with
      | some c => pure c
      | none => free Parser.fail) := rfl
  rw [h]
  cases fromHex [a, b] <;> rfl

theorem content_events (s : Str) : (characterContent s).2 = (hexChar s).2 := by
  unfold characterContent alt
  cases hexChar s with
  | mk x n => cases x <;> simp [free]

theorem character_quote (s : Str) : (character ('\'' :: s)).2 = (hexChar s).2 := by
  have h1 : ∀ s, (character s).2 = ((delimited (free (char '\'')) characterContent (free (char '\''))) s).2 :=
    fun s => bind_events (fun _ _ => rfl) s
  rw [h1]
  show (([] : List Event) ++ ((characterContent >>= fun v => (free (char '\'') >>= fun _ => pure v) : TP Char) s).2) = _
  rw [List.nil_append, bind_events, content_events]
  intro v s
  rw [bind_events fun _ _ => rfl]
  rfl

theorem hexChar_quiet {s : Str} (h : ElmParser.preceded (tag c!"\\x") (ElmParser.pmap (take 2) fromHex) s = .err) :
    (hexChar s).2 = [] := by
  show (andThen (ElmParser.preceded (tag c!"\\x") (ElmParser.pmap (take 2) fromHex) s, []) _).2 = []
  rw [h]
  rfl

theorem cons_hexPrefix (k : Nat) : Cons k (ElmParser.preceded (tag c!"\\x") (ElmParser.pmap (take 2) fromHex)) := by
  cases k with
  | zero => intro s hs; omega
  | succ k => exact cons_preceded (cons_tag _ _ _) (good_pmap (good_take k _))

/-- The events of a character literal. -/
theorem character_events (s : Str) : (character s).2 = [] ∨
    ∃ a b r, s = '\'' :: '\\' :: 'x' :: a :: b :: r ∧ (character s).2 = [.hex (fromHex [a, b])] := by
  cases s with
  | nil => exact .inl rfl
  | cons c s =>
    by_cases hc : c = '\''
    · subst hc
      rw [character_quote]
      by_cases hs : ∃ a b r, s = '\\' :: 'x' :: a :: b :: r
      · obtain ⟨a, b, r, rfl⟩ := hs
        exact .inr ⟨a, b, r, rfl, hexChar_events a b r⟩
      · refine .inl (hexChar_quiet ?_)
        rcases err_or_ok (p := ElmParser.preceded (tag c!"\\x") (ElmParser.pmap (take 2) fromHex)) cons_hexPrefix s with h | ⟨v, r, h, -⟩
        · exact h
        · simp only [preceded_eq_ok, pmap_eq_ok, tag_eq_ok, take2_iff] at h
          obtain ⟨w, r1, ⟨rfl, rfl⟩, w', ⟨a, b, rfl, rfl⟩, -⟩ := h
          exact absurd ⟨a, b, r, rfl⟩ hs
    · left
      unfold character pmap
      rw [bind_events fun _ _ => rfl]
      show (andThen (char '\'' (c :: s), []) _).2 = []
      rw [char_cons_ne s hc]
      rfl

theorem ev_character : Ev character := fun s => by
  refine ⟨?_, fun v r e => suffix_of_ok (fun k => (cons_character k).good) ((er_character s).symm.trans e)⟩
  intro e he r hr
  rcases character_events s with h | ⟨a, b, t, rfl, h⟩
  · rw [h] at he; cases he
  · rw [h, List.mem_singleton] at he
    rw [he] at hr
    exact ⟨a, b, ⟨[], t, rfl⟩, (Event.hex.inj hr).symm⟩

/-- Structural proof. -/
macro "ev_tac" : tactic => `(tactic| repeat' first
  | with_reducible exact ev_pure _
  | assumption
  | with_reducible exact ev_cons fun k => cons_char k _
  | with_reducible exact ev_cons fun k => cons_tag k _ _
  | with_reducible exact ev_cons fun k => cons_gap k _ _
  | with_reducible exact ev_free fun k => good_optGap k _ _
  | with_reducible exact ev_cons fun k => cons_commaSep k _
  | with_reducible exact ev_cons cons_loName
  | with_reducible exact ev_free good_multispace0
  | with_reducible exact ev_cons cons_multispace
  | with_reducible exact ev_cons cons_spaces
  | with_reducible exact ev_cons cons_space1
  | with_reducible exact ev_cons cons_operatorOrAs
  | with_reducible exact ev_cons cons_functionNameOrOp
  | with_reducible exact ev_cons cons_access
  | with_reducible exact ev_cons cons_variableP
  | with_reducible exact ev_cons cons_accessFunction
  | with_reducible exact ev_cons cons_string
  | with_reducible exact ev_cons cons_float
  | with_reducible exact ev_cons cons_integer
  | with_reducible exact ev_cons cons_simplifiedRecord
  | with_reducible exact ev_cons cons_typeVariable
  | with_reducible exact ev_cons cons_typeConstant
  | with_reducible exact ev_cons cons_upDots
  | with_reducible exact ev_cons cons_arrowSep
  | with_reducible exact ev_cons fun k => cons_newLineAndSameIndent k _
  | with_reducible exact ev_cons cons_portModuleDeclaration
  | with_reducible exact ev_cons cons_effectModuleDeclaration
  | with_reducible exact ev_cons cons_moduleDeclaration
  | with_reducible exact ev_cons cons_importStatement
  | with_reducible exact ev_cons cons_infixDeclaration
  | with_reducible exact ev_cons cons_comment
  | with_reducible exact ev_free good_eof
  | with_reducible apply ev_alt
  | with_reducible apply ev_pmap
  | with_reducible apply ev_opt
  | with_reducible apply ev_preceded
  | with_reducible apply ev_terminated
  | with_reducible apply ev_delimited
  | with_reducible apply ev_separatedPair
  | with_reducible apply ev_many0
  | with_reducible apply ev_sepNonemptyList
  | with_reducible apply ev_sepList
  | with_reducible refine ev_bind ?_ fun _ => ?_)

theorem ev_mark {p : TP α} {e : Event} (he : ∀ r, e ≠ .hex r) (h : Ev p) : Ev (mark e p) := fun s =>
  ⟨fun e' he' => (List.mem_cons.1 he').elim (fun h r hr => absurd (h.symm.trans hr) (he r)) ((h s).1 e'), (h s).2⟩

/-- Both entry points. -/
structure TyEv (R : TyTRec) : Prop where
  ty : ∀ ind, Ev (R.type_ ind)
  ann : ∀ ind, Ev (R.typeAnnotation ind)

section
variable {R : TyTRec} (h : TyEv R) (ind : Nat)
include h

theorem ev_typeTuple : Ev (typeTuple R ind) := by
  have := h.ty ind; unfold typeTuple; ev_tac
theorem ev_typeRecordPairs : Ev (typeRecordPairs R ind) := by
  have := h.ann ind
  unfold typeRecordPairs typeRecordPair; ev_tac
theorem ev_typeRecordConstructor : Ev (typeRecordConstructor R ind) := by
  have := ev_typeRecordPairs h ind
  unfold typeRecordConstructor; ev_tac
theorem ev_typeRecord : Ev (typeRecord R ind) := by
  have := ev_typeRecordPairs h ind
  unfold typeRecord; ev_tac
theorem ev_typeParens : Ev (typeParens R ind) := by
  have := h.ann ind; unfold typeParens; ev_tac
theorem ev_typeParameter : Ev (typeParameter R ind) := by
  have h1 := ev_typeTuple h ind
  have h2 := ev_typeRecordConstructor h ind
  have h3 := ev_typeRecord h ind
  have h4 := ev_typeParens h ind
  unfold typeParameter; ev_tac
theorem ev_typeArg : Ev (typeArg R ind) := by
  unfold typeArg; ev_tac
  exact ev_typeParameter h _
theorem ev_typeConstructorF : Ev (typeConstructorF R ind) := by
  have h1 := ev_typeArg h ind
  unfold typeConstructorF; ev_tac
theorem ev_typeF : Ev (typeF R ind) := by
  have h0 := ev_typeConstructorF h ind
  have h1 := ev_typeTuple h ind
  have h2 := ev_typeRecordConstructor h ind
  have h3 := ev_typeRecord h ind
  have h4 := ev_typeParens h ind
  unfold typeF
  refine ev_mark (by simp) ?_
  ev_tac
theorem ev_typeAnnotationF : Ev (typeAnnotationF R ind) := by
  unfold typeAnnotationF
  refine ev_bind (ev_sepNonemptyList (ev_cons cons_arrowSep) (ev_typeF h ind)) fun v => ?_
  split
  · exact ev_fail
  · split
    · exact ev_index _ _
    · generalize buildArrows v.reverse = o
      cases o
      · exact ev_fail
      · exact ev_pure _
end

theorem ev_tyN (n : Nat) : TyEv (tyN n) := by
  induction n with
  | zero => exact ⟨fun _ => ev_div, fun _ => ev_div⟩
  | succ n ih => exact ⟨ev_typeF ih, ev_typeAnnotationF ih⟩

theorem tyRec_type (ind : Nat) (s : Str) : tyRec.type_ ind s = (tyN (s.length + 1)).type_ ind s := rfl
theorem tyRec_ann (ind : Nat) (s : Str) : tyRec.typeAnnotation ind s = (tyN (s.length + 1)).typeAnnotation ind s := rfl

theorem ev_tyRec : TyEv tyRec where
  ty ind s := by rw [tyRec_type]; exact (ev_tyN _).ty ind s
  ann ind s := by rw [tyRec_ann]; exact (ev_tyN _).ann ind s

theorem ev_type (ind : Nat) : Ev (type_ ind) := ev_tyRec.ty ind
theorem ev_typeAnnotation (ind : Nat) : Ev (typeAnnotation ind) := ev_tyRec.ann ind
theorem ev_typeConstructor (ind : Nat) : Ev (typeConstructor ind) := ev_typeConstructorF ev_tyRec ind
theorem ev_functionSignature (ind : Nat) : Ev (functionSignature ind) := by
  unfold functionSignature; ev_tac
  exact ev_typeAnnotation _

section
variable {R : TRec} (h : ∀ ind, Ev (R ind)) (ind : Nat)
include h

theorem ev_tuple : Ev (tuple R ind) := by
  have := h ind; unfold tuple; ev_tac
theorem ev_list : Ev (list R ind) := by
  have := h ind; unfold list; ev_tac
theorem ev_record : Ev (record R ind) := by
  have := h ind; unfold record recordField; ev_tac
theorem ev_recordUpdate : Ev (recordUpdate R ind) := by
  have := h ind; unfold recordUpdate updateField; ev_tac
theorem ev_parens : Ev (parens R ind) := by
  have := h ind; unfold parens; ev_tac
theorem ev_termF : Ev (termF R ind) := by
  have h1 := ev_tuple h ind
  have h2 := ev_list h ind
  have h3 := ev_record h ind
  have h4 := ev_recordUpdate h ind
  have h5 := ev_parens h ind
  have h6 := ev_character
  unfold termF; ev_tac
theorem ev_lambda : Ev (lambda R ind) := by
  have h1 := ev_termF h ind
  unfold lambda; ev_tac
  exact h _
theorem ev_applicationOrVar : Ev (applicationOrVar R ind) := by
  have h1 := ev_termF h ind
  unfold applicationOrVar
  refine ev_bind (ev_sepList (ev_cons fun k => cons_gap k _ _) h1) fun v => ?_
  split
  · exact ev_fail
  · split
    · exact ev_index _ _
    · exact ev_bind (ev_index _ _) fun _ => ev_bind (ev_index _ _) fun _ => ev_pure _
theorem ev_functionDefinitionF : Ev (functionDefinitionF R ind) := by
  have h1 := ev_termF h ind
  unfold functionDefinitionF; ev_tac
  exact h _
theorem ev_functionF : Ev (functionF R ind) := by
  have h1 := ev_functionDefinitionF h ind
  have h2 := ev_functionSignature ind
  unfold functionF; ev_tac
theorem ev_letEntry : Ev (letEntry R ind) := by
  have h1 := ev_functionF h ind
  have h2 := ev_tuple h ind
  have h3 := ev_list h ind
  unfold letEntry letBinding letBindingTarget; ev_tac
  exact h _
theorem ev_letExpression : Ev (letExpression R ind) := by
  have h1 := ev_letEntry h
  have h2 := h ind
  unfold letExpression letBindings; ev_tac
  exact h1 _
theorem ev_caseBranch : Ev (caseBranch R ind) := by
  have h2 := h ind
  unfold caseBranch; ev_tac
  exact h _
theorem ev_caseExpression : Ev (caseExpression R ind) := by
  have h1 := ev_caseBranch h
  have h2 := h ind
  unfold caseExpression casesP; ev_tac
  exact h1 _
theorem ev_ifExpression : Ev (ifExpression R ind) := by
  have h2 := h ind
  unfold ifExpression; ev_tac
  all_goals exact h _
theorem ev_binary : Ev (binary R ind) := by
  have h1 := ev_applicationOrVar h ind
  have h2 := h ind
  unfold binary binaryTail; ev_tac
theorem ev_expressionF : Ev (expressionF R ind) := by
  have h1 := ev_binary h ind
  have h2 := ev_letExpression h ind
  have h3 := ev_caseExpression h ind
  have h4 := ev_ifExpression h ind
  have h5 := ev_lambda h ind
  unfold expressionF; ev_tac
end

theorem ev_exprN (n ind : Nat) : Ev (exprN n ind) := by
  induction n generalizing ind with
  | zero => exact ev_div
  | succ n ih => exact ev_mark (by simp) (ev_expressionF ih ind)

theorem ev_expression (ind : Nat) : Ev (expression ind) := fun s => ev_exprN (s.length + 1) ind s

theorem ev_term (ind : Nat) : Ev (term ind) := ev_termF ev_expression ind
theorem ev_function (ind : Nat) : Ev (function ind) := ev_functionF ev_expression ind

theorem ev_typeAliasDeclaration : Ev typeAliasDeclaration := by
  have h1 := ev_type 0
  have h2 := ev_typeAnnotation 1
  unfold typeAliasDeclaration; ev_tac
theorem ev_typeDeclaration (ind : Nat) : Ev (typeDeclaration ind) := by
  have h1 := ev_type ind
  unfold typeDeclaration; ev_tac
  · exact ev_free fun k => good_bind (cons_gap k _ _).good fun _ => good_bind (cons_char k _).good fun _ => good_bind (cons_spaces k).good fun _ => good_pure _ _
  · exact ev_typeConstructor _
theorem ev_portTypeDeclaration : Ev portTypeDeclaration := by
  unfold portTypeDeclaration; ev_tac
  exact ev_typeAnnotation _
theorem ev_portDeclaration : Ev portDeclaration := by
  unfold portDeclaration; ev_tac
  · exact ev_free fun k => good_many0 (good_preceded (cons_spaces k).good (cons_loName k).good)
  · exact ev_expression _
theorem ev_statement : Ev statement := by
  have h1 := ev_portDeclaration
  have h2 := ev_function 0
  have h3 := ev_typeAliasDeclaration
  have h4 := ev_typeDeclaration 0
  have h5 := ev_portTypeDeclaration
  unfold statement; ev_tac
theorem ev_statements : Ev statements := by
  have h1 := ev_statement
  unfold statements; ev_tac
theorem ev_file : Ev file := by
  have h1 := ev_statements
  unfold file; ev_tac

end ElmParser.Trace
