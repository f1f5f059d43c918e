import Verif.Proofs.ExprWF

/-! Where the expression parsers fail, and what ends an expression. -/
namespace ElmParser
open Spec

theorem orElse_err_right {α : Type} (x : Res α) : x.orElse .err = x := by cases x <;> rfl

/-! ### The term parsers by first character -/

section
variable {c : Char} {t : Str} {rc : ExprRec} {ind : Nat}

theorem op_err_head (h : c ≠ '(') : op (c :: t) = .err := by
  unfold op
  rw [pmap_apply, delimited_apply, char_cons_ne _ h]
  rfl

theorem lowerCase_err (h : loName (c :: t) = .err) : lowerCase (c :: t) = .err := by
  unfold lowerCase
  rw [pmap_apply, h]
  rfl

theorem upperWithDots_err (h : ¬ Upper c) : upperWithDots (c :: t) = .err := by
  unfold upperWithDots
  rw [pmap_apply, upDots_err h]
  rfl

theorem variableP_err_name (h1 : loName (c :: t) = .err) (h2 : ¬ Upper c) (h3 : c ≠ '(') :
    variableP (c :: t) = .err := by
  unfold variableP
  simp only [alt_apply, lowerCase_err h1, upperWithDots_err h2, op_err_head h3, orElse_err]

theorem variableP_err (h1 : ¬ Lower c) (h2 : ¬ Upper c) (h3 : c ∉ ['_', '(']) : variableP (c :: t) = .err := by
  simp only [List.mem_cons, List.not_mem_nil, or_false, not_or] at h3
  exact variableP_err_name (loName_err_head h1 h3.1) h2 h3.2

theorem access_err_of_variable {s : Str} (h : variableP s = .err) : access s = .err := by
  unfold access
  rw [bind_apply, h]
  rfl

theorem accessFunction_err (h : c ≠ '.') : accessFunction (c :: t) = .err := by
  unfold accessFunction
  rw [bind_apply, char_cons_ne _ h]
  rfl

theorem tag_cons_ne {d : Char} {u : Str} (h : c ≠ d) : tag (d :: u) (c :: t) = .err := by
  rcases err_or_ok (fun k => cons_tag k d u) (c :: t) with e | ⟨v, r, e, -⟩
  · exact e
  · obtain ⟨-, e⟩ := tag_eq_ok.1 e
    simp only [List.cons_append, List.cons.injEq] at e
    exact absurd e.1 h

theorem string_err (h : c ≠ '"') : string (c :: t) = .err := by
  unfold string multiString singleString
  simp only [pmap_apply, alt_apply, bind_apply, delimited_apply, tag_cons_ne h, char_cons_ne _ h]
  rfl

theorem sign_none (h1 : c ≠ '+') (h2 : c ≠ '-') : sign (c :: t) = .ok [] (c :: t) :=
  sign_iff.2 ⟨rfl, .inr (.inr ⟨rfl, next_cons.2 ⟨h1, h2⟩⟩)⟩

theorem digit_err {s : Str} (h : Next (fun c => ¬ Digit c) s) : digit s = .err := by
  rcases err_or_ok cons_digit s with e | ⟨v, r, e, -⟩
  · exact e
  · obtain ⟨rfl, ⟨hne, hd⟩, -⟩ := digit_iff.1 e
    cases v with
    | nil => exact absurd rfl hne
    | cons x v => exact absurd (hd x (by simp)) (next_cons.1 h)

theorem number_err {s s' sg : Str} (h : sign s = .ok sg s') (h' : Next (fun c => ¬ Digit c) s') :
    float s = .err ∧ integer s = .err := by
  unfold float integer
  simp only [bind_apply, h, andThen_ok, digit_err h', andThen_err, and_self]

theorem number_err_head (h1 : ¬ Digit c) (h2 : c ≠ '+') (h3 : c ≠ '-') :
    float (c :: t) = .err ∧ integer (c :: t) = .err :=
  number_err (sign_none h2 h3) (next_cons.2 h1)

theorem character_err (h : c ≠ '\'') : character (c :: t) = .err := by
  unfold character
  simp only [pmap_apply, delimited_apply, char_cons_ne _ h, andThen_err]

theorem parens_err (h : c ≠ '(') : parens rc ind (c :: t) = .err := by
  unfold parens
  simp only [delimited_apply, char_cons_ne _ h, andThen_err]

theorem tuple_err (h : c ≠ '(') : tuple rc ind (c :: t) = .err := by
  unfold tuple
  simp only [pmap_apply, delimited_apply, char_cons_ne _ h, andThen_err]

theorem list_err (h : c ≠ '[') : list rc ind (c :: t) = .err := by
  unfold list
  rw [pmap_apply, bracket_err h]
  rfl

theorem record_err (h : c ≠ '{') : record rc ind (c :: t) = .err := by
  unfold record
  rw [pmap_apply, bracket_err h]
  rfl

theorem recordUpdate_err (h : c ≠ '{') : recordUpdate rc ind (c :: t) = .err := by
  unfold recordUpdate
  simp only [delimited_apply, preceded_apply, char_cons_ne _ h, andThen_err]

theorem simplifiedRecord_err (h : c ≠ '{') : simplifiedRecord (c :: t) = .err := by
  unfold simplifiedRecord
  simp only [pmap_apply, delimited_apply, char_cons_ne _ h, andThen_err]

/-- Terms that start with a letter or underscore. -/
theorem termF_word (h : Lower c ∨ Upper c ∨ c = '_') :
    termF rc ind (c :: t) = (access </> variableP) (c :: t) := by
  have hne : ∀ x ∈ ['.', '"', '+', '-', '\'', '(', '[', '{'], c ≠ x := by
    rintro x hx rfl
    revert h
    simp only [List.mem_cons, List.not_mem_nil, or_false] at hx
    rcases hx with rfl | rfl | rfl | rfl | rfl | rfl | rfl | rfl <;> decide
  have hd : ¬ Digit c := by
    rcases h with h | h | rfl
    · revert h; unfold Lower Digit; omega
    · revert h; unfold Upper Digit; omega
    · decide
  have hn := number_err_head (t := t) hd (hne '+' (by decide)) (hne '-' (by decide))
  unfold termF
  simp only [alt_apply, accessFunction_err (hne '.' (by decide)), string_err (hne '"' (by decide)), hn.1, hn.2,
    character_err (hne '\'' (by decide)), parens_err (hne '(' (by decide)), list_err (hne '[' (by decide)),
    tuple_err (hne '(' (by decide)), recordUpdate_err (hne '{' (by decide)), record_err (hne '{' (by decide)),
    simplifiedRecord_err (hne '{' (by decide)), orElse_err_right]

theorem termF_dot : termF rc ind ('.' :: t) = accessFunction ('.' :: t) := by
  have hn := number_err_head (c := '.') (t := t) (by decide) (by decide) (by decide)
  have hv := variableP_err (c := '.') (t := t) (by decide) (by decide) (by decide)
  unfold termF
  simp only [alt_apply, access_err_of_variable hv, hv, string_err (c := '.') (t := t) (by decide), hn.1, hn.2,
    character_err (c := '.') (t := t) (by decide), parens_err (c := '.') (t := t) (by decide), list_err (c := '.') (t := t) (by decide),
    tuple_err (c := '.') (t := t) (by decide), recordUpdate_err (c := '.') (t := t) (by decide), record_err (c := '.') (t := t) (by decide),
    simplifiedRecord_err (c := '.') (t := t) (by decide), orElse_err, orElse_err_right]

theorem termF_quote : termF rc ind ('"' :: t) = string ('"' :: t) := by
  have hn := number_err_head (c := '"') (t := t) (by decide) (by decide) (by decide)
  have hv := variableP_err (c := '"') (t := t) (by decide) (by decide) (by decide)
  unfold termF
  simp only [alt_apply, access_err_of_variable hv, hv, accessFunction_err (c := '"') (t := t) (by decide), hn.1, hn.2,
    character_err (c := '"') (t := t) (by decide), parens_err (c := '"') (t := t) (by decide), list_err (c := '"') (t := t) (by decide),
    tuple_err (c := '"') (t := t) (by decide), recordUpdate_err (c := '"') (t := t) (by decide), record_err (c := '"') (t := t) (by decide),
    simplifiedRecord_err (c := '"') (t := t) (by decide), orElse_err, orElse_err_right]

theorem termF_number (h : Digit c ∨ c = '+' ∨ c = '-') :
    termF rc ind (c :: t) = (float </> integer) (c :: t) := by
  have hne : ∀ x ∈ ['.', '"', '\'', '(', '[', '{', '_'], c ≠ x := by
    rintro x hx rfl
    revert h
    simp only [List.mem_cons, List.not_mem_nil, or_false] at hx
    rcases hx with rfl | rfl | rfl | rfl | rfl | rfl | rfl <;> decide
  have hv : variableP (c :: t) = .err := by
    refine variableP_err ?_ ?_ ?_
    · rcases h with h | rfl | rfl
      · revert h; unfold Lower Digit; omega
      · decide
      · decide
    · rcases h with h | rfl | rfl
      · revert h; unfold Upper Digit; omega
      · decide
      · decide
    · simp only [List.mem_cons, List.not_mem_nil, or_false, not_or]
      exact ⟨hne '_' (by decide), hne '(' (by decide)⟩
  unfold termF
  simp only [alt_apply, access_err_of_variable hv, hv, accessFunction_err (hne '.' (by decide)), string_err (hne '"' (by decide)),
    character_err (hne '\'' (by decide)), parens_err (hne '(' (by decide)), list_err (hne '[' (by decide)),
    tuple_err (hne '(' (by decide)), recordUpdate_err (hne '{' (by decide)), record_err (hne '{' (by decide)),
    simplifiedRecord_err (hne '{' (by decide)), orElse_err, orElse_err_right]

theorem termF_apostrophe : termF rc ind ('\'' :: t) = character ('\'' :: t) := by
  have hn := number_err_head (c := '\'') (t := t) (by decide) (by decide) (by decide)
  have hv := variableP_err (c := '\'') (t := t) (by decide) (by decide) (by decide)
  unfold termF
  simp only [alt_apply, access_err_of_variable hv, hv, accessFunction_err (c := '\'') (t := t) (by decide),
    string_err (c := '\'') (t := t) (by decide), hn.1, hn.2,
    parens_err (c := '\'') (t := t) (by decide), list_err (c := '\'') (t := t) (by decide),
    tuple_err (c := '\'') (t := t) (by decide), recordUpdate_err (c := '\'') (t := t) (by decide), record_err (c := '\'') (t := t) (by decide),
    simplifiedRecord_err (c := '\'') (t := t) (by decide), orElse_err, orElse_err_right]

theorem termF_bracket : termF rc ind ('[' :: t) = list rc ind ('[' :: t) := by
  have hn := number_err_head (c := '[') (t := t) (by decide) (by decide) (by decide)
  have hv := variableP_err (c := '[') (t := t) (by decide) (by decide) (by decide)
  unfold termF
  simp only [alt_apply, access_err_of_variable hv, hv, accessFunction_err (c := '[') (t := t) (by decide),
    string_err (c := '[') (t := t) (by decide), hn.1, hn.2, character_err (c := '[') (t := t) (by decide),
    parens_err (c := '[') (t := t) (by decide),
    tuple_err (c := '[') (t := t) (by decide), recordUpdate_err (c := '[') (t := t) (by decide), record_err (c := '[') (t := t) (by decide),
    simplifiedRecord_err (c := '[') (t := t) (by decide), orElse_err, orElse_err_right]

theorem termF_brace : termF rc ind ('{' :: t) =
    (recordUpdate rc ind </> record rc ind </> simplifiedRecord) ('{' :: t) := by
  have hn := number_err_head (c := '{') (t := t) (by decide) (by decide) (by decide)
  have hv := variableP_err (c := '{') (t := t) (by decide) (by decide) (by decide)
  unfold termF
  simp only [alt_apply, access_err_of_variable hv, hv, accessFunction_err (c := '{') (t := t) (by decide),
    string_err (c := '{') (t := t) (by decide), hn.1, hn.2, character_err (c := '{') (t := t) (by decide),
    parens_err (c := '{') (t := t) (by decide), list_err (c := '{') (t := t) (by decide),
    tuple_err (c := '{') (t := t) (by decide), orElse_err]

theorem termF_paren : termF rc ind ('(' :: t) =
    (access </> variableP </> parens rc ind </> tuple rc ind) ('(' :: t) := by
  have hn := number_err_head (c := '(') (t := t) (by decide) (by decide) (by decide)
  unfold termF
  simp only [alt_apply, accessFunction_err (c := '(') (t := t) (by decide),
    string_err (c := '(') (t := t) (by decide), hn.1, hn.2, character_err (c := '(') (t := t) (by decide),
    list_err (c := '(') (t := t) (by decide),
    recordUpdate_err (c := '(') (t := t) (by decide), record_err (c := '(') (t := t) (by decide),
    simplifiedRecord_err (c := '(') (t := t) (by decide), orElse_err, orElse_err_right]

theorem termF_err_head (h : ¬ TermHead c) : termF rc ind (c :: t) = .err := by
  unfold TermHead at h
  simp only [not_or, List.mem_cons, List.not_mem_nil, or_false] at h
  obtain ⟨hl, hu, hd, h1, h2, h3, h4, h5, h6, h7, h8, h9⟩ := h
  have hn := number_err_head (t := t) hd h5 h6
  have hv : variableP (c :: t) = .err := variableP_err hl hu (by simp [h1, h2])
  unfold termF
  simp only [alt_apply, access_err_of_variable hv, hv, accessFunction_err h3, string_err h4, hn.1, hn.2, character_err h7,
    parens_err h2, list_err h8, tuple_err h2, recordUpdate_err h9, record_err h9, simplifiedRecord_err h9, orElse_err]
end

theorem termF_nil {rc : ExprRec} {ind : Nat} : termF rc ind [] = .err := by rfl

theorem termF_err_next {rc : ExprRec} {ind : Nat} {s : Str} (h : Next (fun c => ¬ TermHead c) s) :
    termF rc ind s = .err := by
  cases s with
  | nil => exact termF_nil
  | cons c s => exact termF_err_head (next_cons.1 h)

/-- `loName` fails on a keyword. -/
theorem loName_keyword {k t : Str} (hk : k ∈ keywords) (ht : Next (fun c => ¬ IdentChar c) t) :
    loName (k ++ t) = .err := by
  have hw : ∃ c cs, k = c :: cs ∧ Lower c ∧ ∀ x ∈ cs, IdentChar x := by
    have : ∀ k ∈ keywords, ∃ c cs, k = c :: cs ∧ Lower c ∧ ∀ x ∈ cs, IdentChar x := by
      unfold keywords
      simp only [List.forall_mem_cons, List.not_mem_nil, false_implies, implies_true, and_true]
      refine ⟨?_, ?_, ?_, ?_, ?_, ?_, ?_, ?_, ?_, ?_, ?_, ?_, ?_, ?_, ?_⟩ <;>
        exact ⟨_, _, rfl, by decide, by decide⟩
    exact this k hk
  rcases err_or_ok cons_loName (k ++ t) with e | ⟨n, r, e, -⟩
  · exact e
  · exfalso
    obtain ⟨e1, h⟩ := loName_iff.1 e
    obtain ⟨c, cs, rfl, hc, hcs⟩ := hw
    rcases h with rfl | ⟨⟨d, ds, rfl, hd, hds⟩, hnk, hr⟩
    · simp only [List.cons_append, List.cons.injEq] at e1
      rw [e1.1] at hc
      exact absurd hc (by decide)
    · -- both are the maximal word
      have hlen : cs.length = ds.length := by
        simp only [List.cons_append, List.cons.injEq] at e1
        obtain ⟨-, e1⟩ := e1
        rcases Nat.lt_trichotomy cs.length ds.length with hlt | heq | hgt
        · exfalso
          have : ds = cs ++ ds.drop cs.length := by
            have h1 := congrArg (List.take cs.length) e1
            rw [List.take_left' rfl, List.take_append_of_le_length (by omega)] at h1
            exact (List.take_append_drop cs.length ds).symm.trans (by rw [← h1])
          rw [this, List.append_assoc, List.append_cancel_left_eq] at e1
          cases hdr : ds.drop cs.length with
          | nil => simp only [List.drop_eq_nil_iff] at hdr; omega
          | cons x xs =>
            rw [hdr] at e1
            refine ht x _ e1 (hds x ?_)
            rw [this, hdr]; simp
        · exact heq
        · exfalso
          have : cs = ds ++ cs.drop ds.length := by
            have h1 := congrArg (List.take ds.length) e1
            rw [List.take_append_of_le_length (by omega), List.take_left' rfl] at h1
            exact (List.take_append_drop ds.length cs).symm.trans (by rw [h1])
          rw [this, List.append_assoc, List.append_cancel_left_eq] at e1
          cases hdr : cs.drop ds.length with
          | nil => simp only [List.drop_eq_nil_iff] at hdr; omega
          | cons x xs =>
            rw [hdr] at e1
            refine hr x _ e1.symm (hcs x ?_)
            rw [this, hdr]; simp
      have : c :: cs = d :: ds := by
        have := List.append_inj_left e1 (by simp [hlen])
        exact this
      rw [this] at hk
      exact hnk hk

theorem keyword_lower {k : Str} (hk : k ∈ keywords) : ∃ c cs, k = c :: cs ∧ Lower c := by
  have : ∀ k ∈ keywords, ∃ c cs, k = c :: cs ∧ Lower c := by
    unfold keywords
    simp only [List.forall_mem_cons, List.not_mem_nil, false_implies, implies_true, and_true]
    refine ⟨?_, ?_, ?_, ?_, ?_, ?_, ?_, ?_, ?_, ?_, ?_, ?_, ?_, ?_, ?_⟩ <;>
      exact ⟨_, _, rfl, by decide⟩
  exact this k hk

theorem variableP_keyword {k t : Str} (hk : k ∈ keywords) (ht : Next (fun c => ¬ IdentChar c) t) :
    variableP (k ++ t) = .err := by
  have h := loName_keyword hk ht
  obtain ⟨c, cs, rfl, hc⟩ := keyword_lower hk
  refine variableP_err_name h ?_ ?_
  · revert hc; unfold Lower Upper; omega
  · rintro rfl; revert hc; decide

theorem termF_keyword {rc : ExprRec} {ind : Nat} {k t : Str} (hk : k ∈ keywords)
    (ht : Next (fun c => ¬ IdentChar c) t) : termF rc ind (k ++ t) = .err := by
  have h := variableP_keyword hk ht
  obtain ⟨c, cs, rfl, hc⟩ := keyword_lower hk
  have := termF_word (rc := rc) (ind := ind) (c := c) (t := cs ++ t) (.inl hc)
  rw [List.cons_append] at h ⊢
  rw [this, alt_apply, access_err_of_variable h, orElse_err, h]

/-- A sign that is not followed by a digit. -/
theorem termF_sign_err {rc : ExprRec} {ind : Nat} {c : Char} {t : Str} (hc : c = '+' ∨ c = '-')
    (ht : Next (fun c => ¬ Digit c) t) : termF rc ind (c :: t) = .err := by
  have hs : sign (c :: t) = .ok [c] t := by
    refine sign_iff.2 ⟨rfl, ?_⟩
    rcases hc with rfl | rfl
    · exact .inl rfl
    · exact .inr (.inl rfl)
  have hn := number_err hs ht
  rw [termF_number (.inr hc), alt_apply, hn.1, hn.2]
  rfl

theorem accessFunction_err_next {t : Str} (h : Next (fun c => ¬ Lower c ∧ c ≠ '_') t) :
    accessFunction ('.' :: t) = .err := by
  unfold accessFunction
  rw [bind_apply, char_cons, andThen_ok, bind_apply]
  cases t with
  | nil => rfl
  | cons c t =>
    rw [loName_err_head (next_cons.1 h).1 (next_cons.1 h).2]
    rfl

theorem opChar_not {x : Char} (h : OpChar x) : ¬ IdentChar x ∧ ¬ White x := by
  have : ∀ y ∈ ['+', '-', '/', '*', '=', '.', '$', '<', '>', ':', '&', '|', '^', '?', '%', '#', '@', '~',
      '!', '\\'], ¬ IdentChar y ∧ ¬ White y := by decide
  exact this x h

theorem white_not {x : Char} (h : White x) : ¬ IdentChar x ∧ ¬ OpChar x ∧ ¬ TermHead x ∧ x ≠ '.' ∧ x ≠ '"' ∧
    x ∉ [')', ',', ']', '}', '|', '=', '-', '(', '{', '['] := by
  rcases h with rfl | rfl | rfl | rfl <;> decide

theorem ident_digit {x : Char} (h : ¬ IdentChar x) : ¬ Digit x ∧ ¬ Lower x ∧ ¬ Upper x ∧ x ≠ '_' := by
  unfold IdentChar at h
  simp only [not_or] at h
  exact ⟨h.2.2.1, h.1, h.2.1, h.2.2.2⟩

/-- No term starts with an operator and white space. -/
theorem termF_err_opStart {rc : ExprRec} {ind : Nat} {s : Str} (h : OpStart s) : termF rc ind s = .err := by
  obtain ⟨o, w, t, rfl, hw, rfl | ⟨hne, ho, hr⟩⟩ := h
  · exact termF_keyword (by decide) (next_cons.2 (white_not hw).1)
  · cases o with
    | nil => exact absurd rfl hne
    | cons x o =>
      have hnext : Next (fun c => ¬ IdentChar c) (o ++ w :: t) := by
        cases o with
        | nil => exact next_cons.2 (white_not hw).1
        | cons y o => exact next_cons.2 (opChar_not (ho y (by simp))).1
      by_cases h1 : x = '.'
      · subst h1
        rw [List.cons_append, termF_dot, accessFunction_err_next]
        exact Next.imp hnext fun c h => ⟨(ident_digit h).2.1, (ident_digit h).2.2.2⟩
      by_cases h2 : x = '+' ∨ x = '-'
      · rw [List.cons_append, termF_sign_err h2]
        exact Next.imp hnext fun c h => (ident_digit h).1
      · rw [List.cons_append]
        refine termF_err_head ?_
        have hx := ho x (by simp)
        simp only [not_or] at h2
        have : ∀ y ∈ ['+', '-', '/', '*', '=', '.', '$', '<', '>', ':', '&', '|', '^', '?', '%', '#', '@', '~',
          '!', '\\'], y ≠ '.' → y ≠ '+' → y ≠ '-' → ¬ TermHead y := by decide
        exact this x hx h1 h2.1 h2.2

/-! ### Expressions -/

theorem applicationOrVar_err {ind : Nat} {s : Str} (h : termF expression ind s = .err) :
    applicationOrVar expression ind s = .err := by
  unfold applicationOrVar
  have : sepList (gap ind .GT) (termF expression ind) s = .ok [] s := by
    unfold sepList; rw [h]
  rw [bind_apply, this]
  rfl

theorem binary_err {ind : Nat} {s : Str} (h : termF expression ind s = .err) :
    binary expression ind s = .err := by
  unfold binary
  rw [bind_apply, applicationOrVar_err h]
  rfl

theorem letExpression_err {rc : ExprRec} {ind : Nat} {s : Str} (h : tag c!"let" s = .err) :
    letExpression rc ind s = .err := by unfold letExpression; rw [bind_apply, h]; rfl
theorem caseExpression_err {rc : ExprRec} {ind : Nat} {s : Str} (h : tag c!"case" s = .err) :
    caseExpression rc ind s = .err := by unfold caseExpression; rw [bind_apply, h]; rfl
theorem ifExpression_err {rc : ExprRec} {ind : Nat} {s : Str} (h : tag c!"if" s = .err) :
    ifExpression rc ind s = .err := by unfold ifExpression; rw [bind_apply, h]; rfl
theorem lambda_err {rc : ExprRec} {ind : Nat} {s : Str} (h : char '\\' s = .err) :
    lambda rc ind s = .err := by unfold lambda; rw [bind_apply, h]; rfl

theorem expression_err {ind : Nat} {s : Str} (h : termF expression ind s = .err) (h1 : tag c!"let" s = .err)
    (h2 : tag c!"case" s = .err) (h3 : tag c!"if" s = .err) (h4 : char '\\' s = .err) :
    expression ind s = .err := by
  rw [expression_unfold]
  unfold expressionF
  simp only [alt_apply, binary_err h, letExpression_err h1, caseExpression_err h2, ifExpression_err h3,
    lambda_err h4, orElse_err]

theorem expression_err_head {ind : Nat} {c : Char} {t : Str} (h : ¬ TermHead c) (h' : c ≠ '\\') :
    expression ind (c :: t) = .err := by
  have hl : ¬ Lower c := fun h' => h (.inl h')
  refine expression_err (termF_err_head h) (tag_cons_ne ?_) (tag_cons_ne ?_) (tag_cons_ne ?_)
    (char_cons_ne _ h') <;> rintro rfl <;> exact hl (by decide)

theorem expression_nil {ind : Nat} : expression ind [] = .err :=
  expression_err termF_nil rfl rfl rfl rfl

theorem expression_err_next {ind : Nat} {s : Str} (h : Next (fun c => ¬ TermHead c ∧ ¬ OpChar c) s) :
    expression ind s = .err := by
  cases s with
  | nil => exact expression_nil
  | cons c s =>
    have := next_cons.1 h
    refine expression_err_head this.1 ?_
    rintro rfl
    exact this.2 (by decide)

theorem expression_err_white {ind : Nat} {c : Char} {t : Str} (h : White c) :
    expression ind (c :: t) = .err :=
  expression_err_next (next_cons.2 ⟨(white_not h).2.2.1, (white_not h).2.1⟩)

theorem opt_none {α : Type} {p : Parser α} {s : Str} (h : p s = .err) : opt p s = .ok none s := by
  rw [opt_apply, h]; rfl

/-! ### Closers -/

theorem closer_term {rc : ExprRec} {ind : Nat} {r : Str} (h : Closer r) : termF rc ind r = .err := by
  rcases h with h | ⟨t, rfl, -⟩ | ⟨k, t, hk, rfl, ht⟩
  · exact termF_err_next (Next.imp h fun _ h => h.1)
  · exact termF_sign_err (.inr rfl) (next_cons.2 (by decide))
  · refine termF_keyword ?_ ht
    have : ∀ k ∈ [c!"then", c!"else", c!"of", c!"in"], k ∈ keywords := by decide
    exact this k hk

theorem operator_err_head {c : Char} {t : Str} (h : ¬ OpChar c) : operator (c :: t) = .err := by
  rcases err_or_ok cons_operator (c :: t) with e | ⟨n, r, e, -⟩
  · exact e
  · obtain ⟨e1, ⟨hne, ho, -⟩, -⟩ := operator_iff.1 e
    cases n with
    | nil => exact absurd rfl hne
    | cons x n =>
      simp only [List.cons_append, List.cons.injEq] at e1
      rw [e1.1] at h
      exact absurd (ho x (by simp)) h

theorem operatorOrAs_err_head {c : Char} {t : Str} (h : ¬ OpChar c) (h' : c ≠ 'a') :
    operatorOrAs (c :: t) = .err := by
  unfold operatorOrAs
  simp only [pmap_apply, alt_apply, tag_cons_ne h', operator_err_head h, orElse_err, andThen_err]

/-- A maximal run of operator characters that is reserved. -/
theorem operator_reserved {o t : Str} (ho : ∀ c ∈ o, OpChar c) (hr : o ∈ reservedOps)
    (ht : Next (fun c => ¬ OpChar c) t) : operator (o ++ t) = .err := by
  rcases err_or_ok cons_operator (o ++ t) with e | ⟨n, r, e, -⟩
  · exact e
  · exfalso
    obtain ⟨e1, ⟨hne, hn, hnr⟩, hr'⟩ := operator_iff.1 e
    have hu : o = n := by
      clear e hnr hr hne
      induction o generalizing n with
      | nil =>
        cases n with
        | nil => rfl
        | cons x n => exact absurd (hn x (by simp)) (ht x _ e1)
      | cons y o ih =>
        cases n with
        | nil => exact absurd (ho y (by simp)) (hr' y _ e1.symm)
        | cons x n =>
          simp only [List.cons_append, List.cons.injEq] at e1
          obtain ⟨rfl, e1⟩ := e1
          rw [ih (fun c hc => ho c (by simp [hc])) _ e1 (fun c hc => hn c (by simp [hc]))]
    exact hnr (hu ▸ hr)

theorem closer_operator {r : Str} (h : Closer r) : operatorOrAs r = .err := by
  rcases h with h | ⟨t, rfl, ht⟩ | ⟨k, t, hk, rfl, -⟩
  · cases r with
    | nil => rfl
    | cons c r =>
      have := next_cons.1 h
      refine operatorOrAs_err_head this.2 ?_
      rintro rfl
      exact this.1 (by decide)
  · unfold operatorOrAs
    have := operator_reserved (o := c!"->") (by decide) (by decide) ht
    simp only [List.cons_append, List.nil_append] at this
    simp only [pmap_apply, alt_apply, tag_cons_ne (c := '-') (d := 'a') (by decide), this, orElse_err, andThen_err]
  · simp only [List.mem_cons, List.not_mem_nil, or_false] at hk
    rcases hk with rfl | rfl | rfl | rfl <;> exact operatorOrAs_err_head (by decide) (by decide)

theorem closer_expression {ind : Nat} {r : Str} (h : Closer r) : expression ind r = .err := by
  have h' := h
  rcases h with h | ⟨t, rfl, ht⟩ | ⟨k, t, hk, rfl, -⟩
  · exact expression_err_next h
  · exact expression_err (closer_term h') (tag_cons_ne (by decide)) (tag_cons_ne (by decide))
      (tag_cons_ne (by decide)) (char_cons_ne _ (by decide))
  · simp only [List.mem_cons, List.not_mem_nil, or_false] at hk
    have hif : ∀ u : Str, tag c!"if" ('i' :: 'n' :: u) = .err := by
      intro u
      rcases err_or_ok (fun k => cons_tag k 'i' ['f']) ('i' :: 'n' :: u) with e | ⟨v, r, e, -⟩
      · exact e
      · obtain ⟨-, e⟩ := tag_eq_ok.1 e
        simp at e
    rcases hk with rfl | rfl | rfl | rfl
    · exact expression_err (closer_term h') (tag_cons_ne (by decide)) (tag_cons_ne (by decide))
        (tag_cons_ne (by decide)) (char_cons_ne _ (by decide))
    · exact expression_err (closer_term h') (tag_cons_ne (by decide)) (tag_cons_ne (by decide))
        (tag_cons_ne (by decide)) (char_cons_ne _ (by decide))
    · exact expression_err (closer_term h') (tag_cons_ne (by decide)) (tag_cons_ne (by decide))
        (tag_cons_ne (by decide)) (char_cons_ne _ (by decide))
    · exact expression_err (closer_term h') (tag_cons_ne (by decide)) (tag_cons_ne (by decide))
        (hif t) (char_cons_ne _ (by decide))

/-! ### The end of an expression -/

/-- The arguments of an application end. -/
structure ArgStop (ind : Nat) (r : Str) : Prop where
  tok : TermStop r
  arg : preceded (gap ind .GT) (termF expression ind) r = .err

theorem Spec.Stop.argStop {ind : Nat} {r : Str} (h : Stop ind r) : ArgStop ind r := by
  refine ⟨h.1, ?_⟩
  rw [preceded_apply]
  rcases h.2 with h | ⟨ls, last, r', hg, h⟩
  · rw [gap_none h]; rfl
  · rcases err_or_ok (fun k => cons_gap k ind .GT) r with e | ⟨i, t, e, -⟩
    · rw [e]; rfl
    · rw [e, andThen_ok]
      obtain ⟨rfl, h'⟩ := (gap_of_gap hg ind .GT).1 e
      rcases h with h | ⟨h1, h2⟩
      · exact closer_term h
      · exfalso
        rcases h' with ⟨h3, -⟩ | ⟨-, -, h3⟩
        · exact h1 h3
        · simp only [Rel] at h3
          rcases h2 with h2 | ⟨h2, -⟩ <;> omega

theorem Spec.Stop.binaryTail {ind : Nat} {r : Str} (h : Stop ind r) :
    ElmParser.binaryTail expression ind r = .err := by
  unfold ElmParser.binaryTail
  rw [bind_apply]
  rcases h.2 with h | ⟨ls, last, r', hg, h⟩
  · rw [gap_none h]; rfl
  · rcases err_or_ok (fun k => cons_gap k ind .GTE) r with e | ⟨i, t, e, -⟩
    · rw [e]; rfl
    · rw [e, andThen_ok, bind_apply]
      obtain ⟨rfl, h'⟩ := (gap_of_gap hg ind .GTE).1 e
      rcases h with h | ⟨h1, h2⟩
      · rw [closer_operator h]; rfl
      · rcases h' with ⟨h3, -⟩ | ⟨-, -, h3⟩
        · exact absurd h3 h1
        · simp only [Rel] at h3
          rcases h2 with h2 | ⟨-, h2⟩
          · omega
          rcases err_or_ok cons_operatorOrAs t with e | ⟨o, t', e, -⟩
          · rw [e]; rfl
          · rw [e, andThen_ok, bind_apply]
            rcases err_or_ok cons_multispace t' with e' | ⟨w, t'', e', -⟩
            · rw [e']; rfl
            · exfalso
              obtain ⟨o, -, rfl, ho⟩ := operatorOrAs_sound e
              obtain ⟨rfl, hne, hw, -⟩ := multispace_iff.1 e'
              cases w with
              | nil => exact hne rfl
              | cons x w => exact h2 ⟨o, x, _, rfl, hw x (by simp), ho⟩

theorem Spec.Stop.mono {ind i : Nat} {r : Str} (h : Stop ind r) (hi : ind ≤ i) : Stop i r := by
  refine ⟨h.1, ?_⟩
  rcases h.2 with h | ⟨ls, last, r', hg, h⟩
  · exact .inl h
  · right
    refine ⟨ls, last, r', hg, ?_⟩
    rcases h with h | ⟨h1, h2⟩
    · exact .inl h
    · right
      refine ⟨h1, ?_⟩
      rcases h2 with h2 | ⟨h2, h3⟩
      · left; omega
      · by_cases h : ind = i
        · exact .inr ⟨by omega, h3⟩
        · left; omega

theorem Spec.GapTxt.le {ind i : Nat} {ir : IR} {g : Str} (h : GapTxt ind ir i g) (hir : ir ≠ .EQ) : ind ≤ i := by
  obtain ⟨ls, n, -, -, -, h⟩ := h
  rcases h with ⟨-, rfl⟩ | ⟨-, -, h⟩
  · exact Nat.le_refl _
  · cases ir with
    | EQ => exact absurd rfl hir
    | GT => simp only [Rel] at h; omega
    | GTE => simp only [Rel] at h; omega

theorem termStop_gap {ind i : Nat} {ir : IR} {g r : Str} (h : GapTxt ind ir i g) : TermStop (g ++ r) := by
  obtain ⟨c, t, rfl, hc⟩ := h.cons
  refine next_cons.2 ?_
  rcases hc with rfl | rfl | ⟨rfl, -⟩ <;> decide

theorem identEnd_gap {ind i : Nat} {ir : IR} {g r : Str} (h : GapTxt ind ir i g) :
    Next (fun c => ¬ IdentChar c) (g ++ r) := Next.imp (termStop_gap h) fun _ h => h.1

theorem termStop_whites {w r : Str} (h : Whites w) (hr : TermStop r) : TermStop (w ++ r) := by
  cases w with
  | nil => exact hr
  | cons x w =>
    have := white_not (h x (by simp))
    exact next_cons.2 ⟨this.1, this.2.2.2.1, this.2.2.2.2.1⟩

theorem termStop_spaces {w r : Str} (h : SpacesTxt w) : TermStop (w ++ r) := by
  obtain ⟨hne, h⟩ := h
  cases w with
  | nil => exact absurd rfl hne
  | cons x w => rw [h x (by simp)]; exact next_cons.2 (by decide)

/-- A gap and a closer. -/
theorem stop_gap_closer {ind' i : Nat} {ir : IR} {g r : Str} (h : GapTxt ind' ir i g) (hr : NoGap r)
    (hc : Closer r) : StopAt 0 (g ++ r) := by
  refine ⟨termStop_gap h, .inr ?_⟩
  obtain ⟨ls, n, hg, -⟩ := h.isGap hr
  exact ⟨ls, _, _, hg, .inl hc⟩

/-- The characters after which every bracketed construct goes on. -/
def closing : List Char := [')', ']', '}', ',']

theorem closing_facts {x : Char} (h : x ∈ closing) : (¬ IdentChar x ∧ x ≠ '.' ∧ x ≠ '"') ∧
    (x ≠ ' ' ∧ x ≠ '\n' ∧ x ≠ '-') ∧ ¬ TermHead x ∧ ¬ OpChar x ∧ ¬ White x := by
  have : ∀ x ∈ closing, (¬ IdentChar x ∧ x ≠ '.' ∧ x ≠ '"') ∧
    (x ≠ ' ' ∧ x ≠ '\n' ∧ x ≠ '-') ∧ ¬ TermHead x ∧ ¬ OpChar x ∧ ¬ White x := by decide
  exact this x h

theorem stop_optGap {ind' : Nat} {ir : IR} {g r : Str} {x : Char} (h : OptGapTxt ind' ir g)
    (hx : x ∈ closing) : StopAt 0 (g ++ x :: r) := by
  obtain ⟨h1, h2, h3, h4, -⟩ := closing_facts hx
  rcases h with rfl | ⟨i, h⟩
  · exact ⟨next_cons.2 h1, .inl (noGap_of_ne h2)⟩
  · exact stop_gap_closer h (noGap_of_ne h2) (.inl (next_cons.2 ⟨h3, h4⟩))

/-- White space consumed by a gap leaves white space. -/
theorem whites_split {w : Str} (h : Whites w) : ∃ w1 w2, w = w1 ++ w2 ∧ (∀ c ∈ w1, c = ' ' ∨ c = '\n') ∧
    Whites w2 ∧ Next (fun c => c ≠ ' ' ∧ c ≠ '\n' ∧ c ≠ '-') w2 := by
  induction w with
  | nil => exact ⟨[], [], rfl, by simp, by simp [Whites], next_nil _⟩
  | cons x w ih =>
    obtain ⟨w1, w2, rfl, h1, h2, h3⟩ := ih fun c hc => h c (by simp [hc])
    by_cases hx : x = ' ' ∨ x = '\n'
    · refine ⟨x :: w1, w2, rfl, ?_, h2, h3⟩
      simp only [List.mem_cons, forall_eq_or_imp]
      exact ⟨hx, h1⟩
    · refine ⟨[], x :: (w1 ++ w2), rfl, by simp, h, next_cons.2 ?_⟩
      simp only [not_or] at hx
      refine ⟨hx.1, hx.2, ?_⟩
      rintro rfl
      have := h '-' (by simp)
      revert this; decide

theorem noGap_whites {w2 r : Str} (h3 : Next (fun c => c ≠ ' ' ∧ c ≠ '\n' ∧ c ≠ '-') w2) (hr : NoGap r) :
    NoGap (w2 ++ r) := by
  cases w2 with
  | nil => exact hr
  | cons y w2 => exact noGap_of_ne (next_cons.1 h3)

theorem stop_whites {w r : Str} {x : Char} (h : Whites w) (hx : x ∈ closing) :
    StopAt 0 (w ++ x :: r) := by
  obtain ⟨h1, h2, h3, h4, -⟩ := closing_facts hx
  refine ⟨termStop_whites h (next_cons.2 h1), ?_⟩
  obtain ⟨w1, w2, rfl, k1, k2, k3⟩ := whites_split h
  rw [List.append_assoc]
  have hn := noGap_whites k3 (noGap_of_ne (c := x) (t := r) h2)
  by_cases hw : w1 = []
  · subst hw; exact .inl hn
  · right
    obtain ⟨ls, n, hg⟩ := spaceNl_gap ⟨hw, k1⟩ hn
    refine ⟨ls, _, _, hg, .inl (.inl ?_)⟩
    cases w2 with
    | nil => exact next_cons.2 ⟨h3, h4⟩
    | cons y w2 =>
      have := white_not (k2 y (by simp))
      exact next_cons.2 ⟨this.2.2.1, this.2.1⟩

/-- An optional gap at white space leaves white space, and it is maximal or failed for good. -/
theorem opt_gap_whites {ind : Nat} {ir : IR} {w r : Str} (h : Whites w) (hr : NoGap r) :
    ∃ w' o, Whites w' ∧ opt (gap ind ir) (w ++ r) = .ok o (w' ++ r) ∧ gap ind ir (w' ++ r) = .err := by
  obtain ⟨w1, w2, rfl, k1, k2, k3⟩ := whites_split h
  have hn := noGap_whites k3 hr
  rw [List.append_assoc]
  rcases err_or_ok (fun k => cons_gap k ind ir) (w1 ++ (w2 ++ r)) with e | ⟨i, t, e, -⟩
  · exact ⟨w1 ++ w2, none, h, by rw [opt_none e, List.append_assoc], by rw [List.append_assoc, e]⟩
  · by_cases hw : w1 = []
    · subst hw
      rw [List.nil_append, gap_none hn] at e
      cases e
    · obtain ⟨ls, n, hg⟩ := spaceNl_gap ⟨hw, k1⟩ hn
      obtain ⟨rfl, -⟩ := (gap_of_gap hg ind ir).1 e
      exact ⟨w2, some i, k2, by rw [opt_apply, e]; rfl, gap_none hn _ _⟩

/-! ### More on how texts start -/

theorem Starts.noGap {c r : Str} (h : Starts c) : NoGap (c ++ r) := by
  obtain ⟨p, x, t, rfl, h1, h2, h3, h4, h5⟩ := h
  cases p with
  | nil =>
    refine noGap_of_ne ⟨?_, ?_, ?_⟩
    · rintro rfl; exact h3 (by decide)
    · rintro rfl; exact h3 (by decide)
    · rintro rfl; exact h2 (by decide)
  | cons y p =>
    have hy := h1 y (by simp)
    refine ⟨next_cons.2 ⟨?_, ?_⟩, ?_⟩
    · rintro rfl; revert hy; decide
    · rintro rfl; revert hy; decide
    · rintro u e
      cases p with
      | nil =>
        simp only [List.cons_append, List.nil_append, List.cons.injEq] at e
        rw [e.2.1] at h2
        exact h2 (by decide)
      | cons z p =>
        simp only [List.cons_append, List.cons.injEq] at e
        obtain ⟨rfl, rfl, -⟩ := e
        exact h5 p rfl

theorem Starts.notWhite {c r : Str} (h : Starts c) : Next (fun c => ¬ White c) (c ++ r) := by
  obtain ⟨p, x, t, rfl, h1, h2, h3, -⟩ := h
  cases p with
  | nil => exact next_cons.2 h3
  | cons y p => exact next_cons.2 (opChar_not (h1 y (by simp))).2

theorem Starts.notSpace {c r : Str} (h : Starts c) : Next (· ≠ ' ') (c ++ r) :=
  Next.imp h.notWhite fun _ h e => h (.inl e)

/-- The text does not start with `as` and white space. -/
def NotAs (s : Str) : Prop := ∀ w t, s = 'a' :: 's' :: w :: t → ¬ White w

theorem Starts.notOp {c r : Str} (h : Starts c) (h' : NotAs (c ++ r)) : ¬ OpStart (c ++ r) := by
  rintro ⟨o, w, t, e, hw, rfl | ⟨-, ho, -⟩⟩
  · exact h' w t e hw
  · obtain ⟨p, x, u, rfl, h1, h2, h3, -⟩ := h
    have : x = w := by
      clear h'
      induction p generalizing o with
      | nil =>
        cases o with
        | nil =>
          simp only [List.nil_append, List.cons_append, List.cons.injEq] at e
          exact e.1
        | cons y o =>
          simp only [List.nil_append, List.cons_append, List.cons.injEq] at e
          rw [e.1] at h2
          exact absurd (ho y (by simp)) h2
      | cons z p ih =>
        cases o with
        | nil =>
          simp only [List.nil_append, List.cons_append, List.cons.injEq] at e
          have := h1 z (by simp)
          rw [e.1] at this
          exact absurd hw (opChar_not this).2
        | cons y o =>
          simp only [List.cons_append, List.cons.injEq] at e
          exact ih o (fun c hc => ho c (by simp [hc])) e.2 (fun c hc => h1 c (by simp [hc]))
    rw [this] at h3
    exact h3 hw

theorem notAs_head {c : Char} {t : Str} (h : c ≠ 'a') : NotAs (c :: t) := by
  rintro w u e
  simp only [List.cons.injEq] at e
  exact absurd e.1 h

theorem notAs_loName {n : Name} {r : Str} (h : LoName n) (hr : Next (fun c => ¬ IdentChar c) r) :
    NotAs (n ++ r) := by
  intro w t e hw
  have h1 := loName_complete h hr
  rw [e] at h1
  have := loName_keyword (k := c!"as") (t := w :: t) (by decide) (next_cons.2 (white_not hw).1)
  simp only [List.cons_append, List.nil_append] at this
  rw [h1] at this
  cases this

theorem notAs_varText {ns : List Name} {c r : Str} (h : VarText ns c) (hr : Next (fun c => ¬ IdentChar c) r) :
    NotAs (c ++ r) := by
  cases h with
  | lo h => exact notAs_loName h hr
  | up h h' =>
    obtain ⟨x, t, e, h⟩ := dotted_head h h'
    rw [e]
    refine notAs_head ?_
    rintro rfl
    revert h; decide
  | op h => exact notAs_head (c := '(') (by decide)
  | commas => exact notAs_head (c := '(') (by decide)

theorem notAs_fnName {n : Name} {c r : Str} (h : FnName n c) (hr : Next (fun c => ¬ IdentChar c) r) :
    NotAs (c ++ r) := by
  cases h with
  | lo h => exact notAs_loName h hr
  | op h => exact notAs_head (c := '(') (by decide)

theorem Spec.TermStop.ident {r : Str} (h : TermStop r) : Next (fun c => ¬ IdentChar c) r := Next.imp h fun _ h => h.1

theorem fargs_termStop {st : Prop} {ind : Nat} {es : List Expr} {c r : Str} {j : Nat} (h : SrcAt st ind j (.fargs es) c)
    (hr : TermStop r) : TermStop (c ++ r) := by
  cases h with
  | fargs0 => exact hr
  | fargs h => simp only [List.append_assoc]; exact termStop_spaces h

theorem args_termStop {st : Prop} {ind : Nat} {es : List Expr} {c r : Str} {j : Nat} (h : SrcAt st ind j (.args es) c)
    (hr : TermStop r) : TermStop (c ++ r) := by
  cases h with
  | args0 => exact hr
  | args h => simp only [List.append_assoc]; exact termStop_gap h

theorem notAs_digits {s d t : Str} (hs : Sign s) (hd : Digits d) : NotAs (s ++ d ++ t) := by
  obtain ⟨hne, hd⟩ := hd
  rcases hs with rfl | rfl | rfl
  · cases d with
    | nil => exact absurd rfl hne
    | cons x d =>
      refine notAs_head ?_
      rintro rfl
      have := hd 'a' (by simp)
      revert this; decide
  · exact notAs_head (by decide)
  · exact notAs_head (by decide)

/-- Categories that may follow a gap where an operator could. -/
def asCat : Cat → Prop
  | .closed _ | .term _ | .app _ | .expr _ | .target _ | .entry _ | .defn _ | .fn _ | .branch _ => True
  | _ => False

theorem src_notAs {st : Prop} {ind : Nat} {k : Cat} {c : Str} {j : Nat} (h : SrcAt st ind j k c) (hk : asCat k) :
    ∀ r, TermStop r → NotAs (c ++ r) := by
  induction h with
  | var h => exact fun r hr => notAs_varText h hr.ident
  | access h =>
    intro r hr
    rw [List.append_assoc]
    exact notAs_varText h (next_cons.2 (by decide))
  | accessFn h => exact fun r hr => notAs_head (by decide)
  | str0 => exact fun r hr => notAs_head (by decide)
  | int h =>
    obtain ⟨s, d, rfl, h1, h2⟩ := h
    exact fun r hr => notAs_digits h1 h2
  | float h =>
    obtain ⟨s, d, e, rfl, h1, h2, -⟩ := h
    intro r hr
    rw [List.append_assoc]
    exact notAs_digits h1 h2
  | closed _ ih => exact ih trivial
  | str1 => exact fun r hr => notAs_head (by decide)
  | str3 => exact fun r hr => notAs_head (by decide)
  | char => exact fun r hr => notAs_head (by decide)
  | parens => exact fun r hr => notAs_head (by decide)
  | list0 => exact fun r hr => notAs_head (by decide)
  | list => exact fun r hr => notAs_head (by decide)
  | tuple0 => exact fun r hr => notAs_head (by decide)
  | tuple1 => exact fun r hr => notAs_head (by decide)
  | tuple => exact fun r hr => notAs_head (by decide)
  | record0 => exact fun r hr => notAs_head (by decide)
  | record => exact fun r hr => notAs_head (by decide)
  | simp => exact fun r hr => notAs_head (by decide)
  | update => exact fun r hr => notAs_head (by decide)
  | update0 => exact fun r hr => notAs_head (by decide)
  | app _ h ih =>
    intro r hr
    rw [List.append_assoc]
    exact ih trivial _ (args_termStop h hr)
  | eApp _ ih => exact ih trivial
  | binop _ hg _ _ _ _ ih =>
    intro r hr
    simp only [List.append_assoc]
    exact ih trivial _ (termStop_gap hg)
  | let_ => exact fun r hr => notAs_head (by decide)
  | case_ => exact fun r hr => notAs_head (by decide)
  | if_ => exact fun r hr => notAs_head (by decide)
  | lambda => exact fun r hr => notAs_head (by decide)
  | tVar h => exact fun r hr => notAs_varText h hr.ident
  | tList0 => exact fun r hr => notAs_head (by decide)
  | tList => exact fun r hr => notAs_head (by decide)
  | tTuple0 => exact fun r hr => notAs_head (by decide)
  | tTuple => exact fun r hr => notAs_head (by decide)
  | tRecord => exact fun r hr => notAs_head (by decide)
  | binding _ hg _ _ ih =>
    intro r hr
    simp only [List.append_assoc]
    exact ih trivial _ (termStop_gap hg)
  | function _ _ ih => exact ih trivial
  | defn h hf hw =>
    intro r hr
    simp only [List.append_assoc]
    exact notAs_fnName h (fargs_termStop hf (termStop_spaces hw)).ident
  | fn _ ih => exact ih trivial
  | fnSig h hw =>
    intro r hr
    simp only [List.append_assoc]
    exact notAs_fnName h (termStop_spaces hw).ident
  | branch _ hg _ _ _ ih =>
    intro r hr
    simp only [List.append_assoc]
    exact ih trivial _ (termStop_gap hg)
  | _ => exact hk.elim

/-- Terms start with a term head. -/
theorem term_head {st : Prop} {ind : Nat} {k : Cat} {c : Str} {j : Nat} (h : SrcAt st ind j k c) :
    (∀ e, k = .term e ∨ k = .closed e → ∃ x t, c = x :: t ∧ TermHead x) := by
  have hlo : ∀ n, LoName n → ∃ x t, n = x :: t ∧ TermHead x := by
    intro n h
    obtain ⟨x, t, e, hx⟩ := loName_head h
    refine ⟨x, t, e, ?_⟩
    clear e
    rcases hx with rfl | h
    · decide
    · exact .inl h
  have hvar : ∀ ns c, VarText ns c → ∃ x t, c = x :: t ∧ TermHead x := by
    intro ns c h
    cases h with
    | lo h => exact hlo _ h
    | up h h' =>
      obtain ⟨x, t, e, h⟩ := dotted_head h h'
      exact ⟨x, t, e, .inr (.inl h)⟩
    | op h => exact ⟨'(', _, rfl, by decide⟩
    | commas => exact ⟨'(', _, rfl, by decide⟩
  have hnum : ∀ s d t, Sign s → Digits d → ∃ x u, s ++ d ++ t = x :: u ∧ TermHead x := by
    rintro s d t hs ⟨hne, hd⟩
    rcases hs with rfl | rfl | rfl
    · cases d with
      | nil => exact absurd rfl hne
      | cons x d => exact ⟨x, _, rfl, .inr (.inr (.inl (hd x (by simp))))⟩
    · exact ⟨'+', _, rfl, by decide⟩
    · exact ⟨'-', _, rfl, by decide⟩
  induction h with
  | var h => exact fun _ _ => hvar _ _ h
  | access h =>
    intro _ _
    obtain ⟨x, t, rfl, hx⟩ := hvar _ _ h
    exact ⟨x, _, rfl, hx⟩
  | accessFn h => exact fun _ _ => ⟨'.', _, rfl, by decide⟩
  | str0 => exact fun _ _ => ⟨'"', _, rfl, by decide⟩
  | int h =>
    obtain ⟨s, d, rfl, h1, h2⟩ := h
    intro _ _
    have := hnum s d [] h1 h2
    simpa using this
  | float h =>
    obtain ⟨s, d, e, rfl, h1, h2, -⟩ := h
    exact fun _ _ => hnum s d _ h1 h2
  | closed _ ih => exact fun e he => ih _ (.inr rfl)
  | str1 => exact fun _ _ => ⟨'"', _, rfl, by decide⟩
  | str3 => exact fun _ _ => ⟨'"', _, rfl, by decide⟩
  | char => exact fun _ _ => ⟨'\'', _, rfl, by decide⟩
  | parens => exact fun _ _ => ⟨'(', _, rfl, by decide⟩
  | list0 => exact fun _ _ => ⟨'[', _, rfl, by decide⟩
  | list => exact fun _ _ => ⟨'[', _, rfl, by decide⟩
  | tuple0 => exact fun _ _ => ⟨'(', _, rfl, by decide⟩
  | tuple1 => exact fun _ _ => ⟨'(', _, rfl, by decide⟩
  | tuple => exact fun _ _ => ⟨'(', _, rfl, by decide⟩
  | record0 => exact fun _ _ => ⟨'{', _, rfl, by decide⟩
  | record => exact fun _ _ => ⟨'{', _, rfl, by decide⟩
  | simp => exact fun _ _ => ⟨'{', _, rfl, by decide⟩
  | update => exact fun _ _ => ⟨'{', _, rfl, by decide⟩
  | update0 => exact fun _ _ => ⟨'{', _, rfl, by decide⟩
  | _ => exact fun _ he => by rcases he with he | he <;> cases he

/-- A parenthesised expression is not an operator in parentheses. -/
theorem op_err_starts {c r : Str} (h : Starts c) : op ('(' :: (c ++ r)) = .err := by
  obtain ⟨p, x, t, rfl, h1, h2, h3, h4, -⟩ := h
  unfold op
  rw [pmap_apply, delimited_apply, char_cons, andThen_ok, alt_apply]
  have hclose : ∀ u, char ')' (x :: u) = .err := fun u => char_cons_ne _ (by
    rintro rfl; exact h4 (by decide))
  have hcomma : takeWhile1 (fun c => c == ',') (p ++ x :: t ++ r) = .err := by
    rcases err_or_ok (fun k => cons_takeWhile1 k _) (p ++ x :: t ++ r) with e | ⟨v, s, e, -⟩
    · exact e
    · exfalso
      obtain ⟨e, hne, hv, -⟩ := takeWhile1_iff.1 e
      cases v with
      | nil => exact hne rfl
      | cons y v =>
        have hy : y = ',' := by simpa using hv y (by simp)
        subst hy
        cases p with
        | nil =>
          simp only [List.nil_append, List.cons_append, List.cons.injEq] at e
          obtain ⟨rfl, -⟩ := e
          exact h4 (by decide)
        | cons z p =>
          simp only [List.cons_append, List.cons.injEq] at e
          have := h1 z (by simp)
          rw [e.1] at this
          revert this; decide
  rcases err_or_ok cons_operator (p ++ x :: t ++ r) with e | ⟨o, s, e, -⟩
  · rw [e, orElse_err, hcomma]
    rfl
  · rw [e, orElse_ok, andThen_ok]
    obtain ⟨e1, ⟨hne, ho, -⟩, hs⟩ := operator_iff.1 e
    have : s = x :: (t ++ r) := by
      clear e hne hcomma
      induction p generalizing o with
      | nil =>
        cases o with
        | nil => simpa using e1.symm
        | cons y o =>
          simp only [List.nil_append, List.cons_append, List.cons.injEq] at e1
          rw [e1.1] at h2
          exact absurd (ho y (by simp)) h2
      | cons z p ih =>
        cases o with
        | nil => exact absurd (h1 z (by simp)) (hs z _ e1.symm)
        | cons y o =>
          simp only [List.cons_append, List.cons.injEq] at e1
          exact ih (fun c hc => h1 c (by simp [hc])) o e1.2 (fun c hc => ho c (by simp [hc]))
    rw [this, hclose]
    rfl

theorem variableP_paren {t : Str} : variableP ('(' :: t) = op ('(' :: t) := by
  unfold variableP
  simp only [alt_apply, lowerCase_err (loName_err_head (c := '(') (t := t) (by decide) (by decide)),
    upperWithDots_err (c := '(') (t := t) (by decide), orElse_err]

/-- In parentheses there is an operator section or not. -/
theorem termF_paren_of_op {rc : ExprRec} {ind : Nat} {t : Str} (h : op ('(' :: t) = .err) :
    termF rc ind ('(' :: t) = (parens rc ind </> tuple rc ind) ('(' :: t) := by
  have hv := variableP_paren (t := t)
  rw [h] at hv
  rw [termF_paren]
  simp only [alt_apply, access_err_of_variable hv, hv, orElse_err]

theorem op_err_white {w : Char} {r : Str} (h : White w ∨ w = ')') : op ('(' :: w :: r) = .err := by
  have h1 : ¬ OpChar w := by
    rcases h with h | rfl
    · exact (white_not h).2.1
    · decide
  have h2 : w ≠ ',' := by
    rintro rfl
    revert h; decide
  unfold op
  rw [pmap_apply, delimited_apply, char_cons, andThen_ok, alt_apply, operator_err_head h1, orElse_err]
  have hcomma : takeWhile1 (fun c => c == ',') (w :: r) = .err := by
    rcases err_or_ok (fun k => cons_takeWhile1 k _) (w :: r) with e | ⟨v, s, e, -⟩
    · exact e
    · exfalso
      obtain ⟨e, hne, hv, -⟩ := takeWhile1_iff.1 e
      cases v with
      | nil => exact hne rfl
      | cons y v =>
        have hy : y = ',' := by simpa using hv y (by simp)
        simp only [List.cons_append, List.cons.injEq] at e
        exact h2 (e.1.trans hy)
  rw [hcomma]
  rfl

end ElmParser
