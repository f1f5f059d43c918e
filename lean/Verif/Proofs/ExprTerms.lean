import Verif.Proofs.ExprFollow

/-! The term parsers on the texts of the concrete syntax. -/
namespace ElmParser
open Spec

/-! ### Names -/

theorem op_ok {o r : Str} (h : Operator o) : op ('(' :: (o ++ ')' :: r)) = .ok (.Variable [o]) r := by
  unfold op
  have e : operator (o ++ ')' :: r) = .ok o (')' :: r) := operator_iff.2 ⟨rfl, h, next_cons.2 (by decide)⟩
  simp only [pmap_apply, delimited_apply, char_cons, andThen_ok, alt_apply, e, orElse_ok]

theorem commas_ok {n : Nat} {r : Str} :
    op ('(' :: (List.replicate (n + 1) ',' ++ ')' :: r)) = .ok (.Variable [List.replicate (n + 1) ',']) r := by
  unfold op
  have e1 : operator (List.replicate (n + 1) ',' ++ ')' :: r) = .err := operator_err_head (c := ',') (by decide)
  have e2 : takeWhile1 (fun c => c == ',') (List.replicate (n + 1) ',' ++ ')' :: r)
      = .ok (List.replicate (n + 1) ',') (')' :: r) :=
    takeWhile1_iff.2 ⟨rfl, by simp, fun c hc => by rw [List.eq_of_mem_replicate hc]; rfl, notStart_cons.2 rfl⟩
  simp only [pmap_apply, delimited_apply, char_cons, andThen_ok, alt_apply, e1, e2, orElse_err]

theorem variableP_ok {ns : List Name} {c r : Str} (h : VarText ns c) (hr : Next (fun c => ¬ IdentChar c) r)
    (hd : ∀ x t, r = '.' :: x :: t → ¬ Upper x) : variableP (c ++ r) = .ok (.Variable ns) r := by
  cases h with
  | lo h => exact alt_eq_ok.2 (.inl (pmap_eq_ok.2 ⟨_, loName_complete h hr, rfl⟩))
  | up h h' =>
    have e : sepNonemptyList (char '.') upName (dotted ns ++ r) = .ok ns r := moduleName_iff.2 ⟨rfl, h, h', hr, hd⟩
    obtain ⟨x, t, ht, hx⟩ := dotted_head h h'
    rw [ht] at e ⊢
    unfold variableP upperWithDots
    rw [List.cons_append] at e ⊢
    have hl : loName (x :: (t ++ r)) = .err := by
      refine loName_err_head ?_ ?_
      · revert hx; unfold Upper Lower; omega
      · rintro rfl; revert hx; decide
    simp only [alt_apply, lowerCase_err hl, pmap_apply, e, orElse_err, andThen_ok, orElse_ok]
  | op h =>
    simp only [List.append_assoc, List.cons_append, List.nil_append]
    rw [variableP_paren, op_ok h]
  | commas =>
    simp only [List.append_assoc, List.cons_append, List.nil_append]
    rw [variableP_paren, commas_ok]

theorem termStop_upper {r : Str} (h : TermStop r) : ∀ x t, r = '.' :: x :: t → ¬ Upper x := by
  rintro x t rfl
  exact absurd rfl (next_cons.1 h).2.1

theorem dotName_err {r : Str} (h : TermStop r) : dotName r = .err := by
  unfold dotName
  rw [bind_apply]
  cases r with
  | nil => rfl
  | cons c r => rw [char_cons_ne _ (next_cons.1 h).2.1]; rfl

theorem dotName_ok {n r : Str} (h : LoName n) (hr : Next (fun c => ¬ IdentChar c) r) :
    dotName ('.' :: (n ++ r)) = .ok n r := by
  unfold dotName
  rw [bind_apply, char_cons, andThen_ok, loName_complete h hr]

theorem dots_ident {ms : List Name} {r : Str} (hr : TermStop r) : Next (fun c => ¬ IdentChar c) (dots ms ++ r) := by
  cases ms with
  | nil => exact hr.ident
  | cons m ms => exact next_cons.2 (by decide)

theorem run_dots {ms : List Name} {r : Str} (h : ∀ m ∈ ms, LoName m) (hr : TermStop r) :
    Run dotName (dots ms ++ r) ms r := by
  induction ms with
  | nil => exact .nil _
  | cons m ms ih =>
    simp only [List.mem_cons, forall_eq_or_imp] at h
    have e := dotName_ok h.1 (dots_ident (ms := ms) hr)
    have : dots (m :: ms) ++ r = '.' :: (m ++ (dots ms ++ r)) := by simp [dots]
    rw [this]
    exact run_cons cons_dotName e (ih h.2)

theorem access_ok {ns : List Name} {c r : Str} {ms : List Name} (h : VarText ns c) (hne : ms ≠ [])
    (h' : ∀ m ∈ ms, LoName m) (hr : TermStop r) :
    access (c ++ (dots ms ++ r)) = .ok (.Access (.Variable ns) ms) r := by
  have e1 : variableP (c ++ (dots ms ++ r)) = .ok (.Variable ns) (dots ms ++ r) := by
    refine variableP_ok h (dots_ident hr) ?_
    cases ms with
    | nil => exact absurd rfl hne
    | cons m ms =>
      rintro x t e
      simp only [dots, List.cons_append, List.cons.injEq, true_and] at e
      obtain ⟨y, u, rfl, hy⟩ := loName_head (h' m (by simp))
      simp only [List.cons_append, List.cons.injEq] at e
      rw [← e.1]
      rcases hy with rfl | hy
      · decide
      · revert hy; unfold Lower Upper; omega
  have e2 : many1 dotName (dots ms ++ r) = .ok ms r := by
    have := run_dots h' hr
    cases this with
    | nil => exact absurd rfl hne
    | cons k1 k2 k3 => exact many1_eq_ok.2 ⟨_, _, _, rfl, k1, many0_ok_of_run k3 (dotName_err hr)⟩
  unfold access
  rw [bind_apply, e1, andThen_ok, bind_apply, e2]
  rfl

theorem access_err_ok {ns : List Name} {c r : Str} (h : VarText ns c) (hr : TermStop r) : access (c ++ r) = .err := by
  unfold access
  rw [bind_apply, variableP_ok h hr.ident (termStop_upper hr), andThen_ok, bind_apply, many1_apply, dotName_err hr]
  rfl

theorem varText_head {ns : List Name} {c : Str} (h : VarText ns c) :
    ∃ x t, c = x :: t ∧ (x = '(' ∨ Lower x ∨ Upper x ∨ x = '_') := by
  cases h with
  | lo h =>
    obtain ⟨x, t, rfl, hx⟩ := loName_head h
    exact ⟨x, t, rfl, by rcases hx with rfl | hx <;> simp_all⟩
  | up h h' =>
    obtain ⟨x, t, ht, hx⟩ := dotted_head h h'
    exact ⟨x, t, ht, .inr (.inr (.inl hx))⟩
  | op h => exact ⟨'(', _, rfl, .inl rfl⟩
  | commas => exact ⟨'(', _, rfl, .inl rfl⟩

theorem term_of_access {rc : ExprRec} {ind : Nat} {x : Char} {t r : Str} {e : Expr}
    (h : x = '(' ∨ Lower x ∨ Upper x ∨ x = '_') (h' : (access </> variableP) (x :: t) = .ok e r) :
    termF rc ind (x :: t) = .ok e r := by
  rcases h with rfl | h
  · rw [termF_paren]
    simp only [alt_apply, orElse_eq_ok] at h' ⊢
    rcases h' with h' | ⟨h1, h2⟩
    · exact .inl h'
    · exact .inr ⟨h1, .inl h2⟩
  · rw [termF_word h, h']

theorem var_term {rc : ExprRec} {ind : Nat} {ns : List Name} {c r : Str} (h : VarText ns c) (hr : TermStop r) :
    termF rc ind (c ++ r) = .ok (.Variable ns) r := by
  have e1 := variableP_ok h hr.ident (termStop_upper hr)
  have e2 := access_err_ok h hr
  obtain ⟨x, t, rfl, hx⟩ := varText_head h
  rw [List.cons_append] at e1 e2 ⊢
  refine term_of_access hx ?_
  rw [alt_apply, e2, orElse_err, e1]

theorem access_term {rc : ExprRec} {ind : Nat} {ns ms : List Name} {c r : Str} (h : VarText ns c)
    (hne : ms ≠ []) (h' : ∀ m ∈ ms, LoName m) (hr : TermStop r) :
    termF rc ind (c ++ (dots ms ++ r)) = .ok (.Access (.Variable ns) ms) r := by
  have e := access_ok h hne h' hr
  obtain ⟨x, t, rfl, hx⟩ := varText_head h
  rw [List.cons_append] at e ⊢
  refine term_of_access hx ?_
  rw [alt_apply, e, orElse_ok]

/-! ### Literals -/

theorem accessFn_term {rc : ExprRec} {ind : Nat} {n r : Str} (h : LoName n) (hr : Next (fun c => ¬ IdentChar c) r) :
    termF rc ind ('.' :: (n ++ r)) = .ok (.AccessFunction n) r := by
  rw [termF_dot]
  unfold accessFunction
  rw [bind_apply, char_cons, andThen_ok, bind_apply, loName_complete h hr]
  rfl

theorem multiString_err_of {s : Str} (h : ∀ t, s ≠ '"' :: '"' :: '"' :: t) : multiString s = .err := by
  rcases err_or_ok cons_multiString s with e | ⟨v, r, e, -⟩
  · exact e
  · obtain ⟨rfl, -⟩ := multiString_iff.1 e
    exact absurd rfl (h _)

theorem stringText_head {c : Char} {s : Str} (h : StringText (c :: s)) : c ≠ '"' := by
  cases h with
  | plain h => exact h
  | escape h => decide

theorem single_term {rc : ExprRec} {ind : Nat} {s r : Str} (h : StringText s) (hr : s ≠ [] ∨ Next (· ≠ '"') r) :
    termF rc ind ('"' :: (s ++ '"' :: r)) = .ok (.String s) r := by
  rw [termF_quote]
  unfold string
  have e1 : singleString ('"' :: (s ++ '"' :: r)) = .ok s r := singleString_iff.2 ⟨by simp, h⟩
  have e2 : multiString ('"' :: (s ++ '"' :: r)) = .err := by
    refine multiString_err_of ?_
    intro t e
    cases s with
    | nil =>
      simp only [List.nil_append, List.cons.injEq, true_and] at e
      rcases hr with hr | hr
      · exact hr rfl
      · exact hr _ _ e rfl
    | cons c s =>
      simp only [List.cons_append, List.cons.injEq, true_and] at e
      exact stringText_head h e.1
  simp only [pmap_apply, alt_apply, e2, e1, orElse_err, andThen_ok]

theorem multi_term {rc : ExprRec} {ind : Nat} {s r : Str} (h : '"' ∉ s) :
    termF rc ind ('"' :: '"' :: '"' :: (s ++ '"' :: '"' :: '"' :: r)) = .ok (.String s) r := by
  rw [termF_quote]
  unfold string
  have e1 : multiString ('"' :: '"' :: '"' :: (s ++ '"' :: '"' :: '"' :: r)) = .ok s r :=
    multiString_iff.2 ⟨by simp, h⟩
  simp only [pmap_apply, alt_apply, e1, orElse_ok, andThen_ok]

theorem char_term {rc : ExprRec} {ind : Nat} {w r : Str} {x : Char} (h : CharText w x) :
    termF rc ind ('\'' :: (w ++ '\'' :: r)) = .ok (.Character x) r := by
  rw [termF_apostrophe]
  exact character_iff.2 ⟨w, x, rfl, rfl, h⟩

theorem number_head {s d t : Str} (hs : Sign s) (hd : Digits d) :
    ∃ x u, s ++ d ++ t = x :: u ∧ (Digit x ∨ x = '+' ∨ x = '-') := by
  obtain ⟨hne, hd⟩ := hd
  rcases hs with rfl | rfl | rfl
  · cases d with
    | nil => exact absurd rfl hne
    | cons x d => exact ⟨x, _, rfl, .inl (hd x (by simp))⟩
  · exact ⟨'+', _, rfl, .inr (.inl rfl)⟩
  · exact ⟨'-', _, rfl, .inr (.inr rfl)⟩

theorem digits_unique {d d' r r' : Str} (hd : Digits d) (hr : Next (fun c => ¬ Digit c) r)
    (hd' : Digits d') (hr' : Next (fun c => ¬ Digit c) r') (e : d ++ r = d' ++ r') : d = d' ∧ r = r' := by
  have h1 := digit_iff.2 ⟨rfl, hd, hr⟩
  rw [e, digit_iff.2 ⟨rfl, hd', hr'⟩] at h1
  simp only [Res.ok.injEq] at h1
  exact ⟨h1.1.symm, h1.2.symm⟩

theorem number_unique {s s' d d' r r' : Str} (hs : Sign s) (hs' : Sign s') (hd : Digits d) (hr : Next (fun c => ¬ Digit c) r)
    (hd' : Digits d') (hr' : Next (fun c => ¬ Digit c) r') (e : s ++ d ++ r = s' ++ d' ++ r') :
    s ++ d = s' ++ d' ∧ r = r' := by
  have h1 : integer (s ++ d ++ r) = .ok (.Integer (s ++ d)) r := integer_iff.2 ⟨_, rfl, rfl, ⟨s, d, rfl, hs, hd⟩, hr⟩
  have h2 : integer (s' ++ d' ++ r') = .ok (.Integer (s' ++ d')) r' :=
    integer_iff.2 ⟨_, rfl, rfl, ⟨s', d', rfl, hs', hd'⟩, hr'⟩
  rw [e, h2] at h1
  simp only [Res.ok.injEq, Expr.Integer.injEq] at h1
  exact ⟨h1.1.symm, h1.2.symm⟩

theorem int_term {rc : ExprRec} {ind : Nat} {n r : Str} (h : IntText n) (hr : Next (fun c => ¬ Digit c) r)
    (hd : ∀ c t, r = '.' :: c :: t → ¬ Digit c) : termF rc ind (n ++ r) = .ok (.Integer n) r := by
  have e1 : integer (n ++ r) = .ok (.Integer n) r := integer_iff.2 ⟨n, rfl, rfl, h, hr⟩
  obtain ⟨s, d, rfl, hs, hd1⟩ := h
  have e2 : float (s ++ d ++ r) = .err := by
    rcases err_or_ok cons_float (s ++ d ++ r) with e | ⟨v, t, e, -⟩
    · exact e
    · exfalso
      obtain ⟨w, -, e, ⟨s', d', f, rfl, hs', hd', hf⟩, -⟩ := float_iff.1 e
      rw [List.append_assoc (s' ++ d')] at e
      obtain ⟨-, rfl⟩ := number_unique hs hs' hd1 hr hd' (next_cons.2 (by decide)) e
      obtain ⟨hne, hf⟩ := hf
      cases f with
      | nil => exact hne rfl
      | cons x f => exact hd x _ rfl (hf x (by simp))
  obtain ⟨x, u, ex, hx⟩ := number_head (t := r) hs hd1
  rw [ex] at e1 e2 ⊢
  rw [termF_number hx, alt_apply, e2, orElse_err, e1]

theorem float_term {rc : ExprRec} {ind : Nat} {n r : Str} (h : FloatText n) (hr : Next (fun c => ¬ Digit c) r) :
    termF rc ind (n ++ r) = .ok (.Float n) r := by
  have e1 : float (n ++ r) = .ok (.Float n) r := float_iff.2 ⟨n, rfl, rfl, h, hr⟩
  obtain ⟨s, d, f, rfl, hs, hd, hf⟩ := h
  obtain ⟨x, u, ex, hx⟩ := number_head (t := '.' :: f) hs hd
  rw [ex, List.cons_append] at e1 ⊢
  rw [termF_number hx, alt_apply, e1, orElse_ok]

/-! ### Things in brackets -/

section
variable {ind : Nat} {r : Str}

theorem parens_term {c : Str} {e : Expr} (hs : Starts c)
    (h : expression ind (c ++ ')' :: r) = .ok e (')' :: r)) :
    termF expression ind ('(' :: (c ++ ')' :: r)) = .ok e r := by
  rw [termF_paren_of_op (op_err_starts hs)]
  unfold parens
  simp only [alt_apply, delimited_apply, char_cons, andThen_ok, h, orElse_ok]

theorem multispace0_ok {w : Str} (h : Whites w) (hr : Next (fun c => ¬ White c) r) :
    multispace0 (w ++ r) = .ok w r := multispace0_iff.2 ⟨rfl, h, hr⟩

theorem component_ok {w1 w2 c : Str} {e : Expr} (h1 : Whites w1) (h2 : Whites w2) (hs : Starts c)
    (h : expression ind (c ++ (w2 ++ r)) = .ok e (w2 ++ r)) (hr : Next (fun c => ¬ White c) r) :
    delimited multispace0 (expression ind) multispace0 (w1 ++ (c ++ (w2 ++ r))) = .ok e r := by
  simp only [delimited_apply, multispace0_ok h1 hs.notWhite, andThen_ok, h, multispace0_ok h2 hr]

theorem cons_component (k : Nat) :
    Cons k (delimited multispace0 (expression ind) multispace0) :=
  delimited_cons (good_multispace0 k) (cons_expression k ind) (good_multispace0 k)

theorem component_err (h : expression ind r = .err) (hr : Next (fun c => ¬ White c) r) :
    delimited multispace0 (expression ind) multispace0 r = .err := by
  have := multispace0_ok (w := []) (by simp [Whites]) hr
  simp only [List.nil_append] at this
  simp only [delimited_apply, this, andThen_ok, h, andThen_err]

theorem tuple0_ok : tuple expression ind ('(' :: ')' :: r) = .ok (.Tuple []) r := by
  unfold tuple
  have e : sepList (char ',') (delimited multispace0 (expression ind) multispace0) (')' :: r)
      = .ok [] (')' :: r) :=
    (sepList_iff (fun k => cons_char k _) cons_component).2 (.inl ⟨rfl, rfl,
      component_err (expression_err_head (by decide) (by decide)) (next_cons.2 (by decide))⟩)
  simp only [pmap_apply, delimited_apply, char_cons, andThen_ok, e]

theorem tuple_ok {w1 w2 c t : Str} {e : Expr} {es : List Expr} (h1 : Whites w1) (h2 : Whites w2) (hs : Starts c)
    (h : expression ind (c ++ (w2 ++ t)) = .ok e (w2 ++ t)) (ht : Next (fun c => ¬ White c) t)
    (hr : Run (preceded (char ',') (delimited multispace0 (expression ind) multispace0)) t es (')' :: r)) :
    tuple expression ind ('(' :: (w1 ++ (c ++ (w2 ++ t)))) = .ok (.Tuple (e :: es)) r := by
  unfold tuple
  have k : sepList (char ',') (delimited multispace0 (expression ind) multispace0) (w1 ++ (c ++ (w2 ++ t)))
      = .ok (e :: es) (')' :: r) :=
    (sepList_iff (fun k => cons_char k _) cons_component).2 (.inr ⟨e, es, t, rfl, component_ok h1 h2 hs h ht, hr, by
      rw [preceded_apply, char_cons_ne _ (by decide)]; rfl⟩)
  simp only [pmap_apply, delimited_apply, char_cons, andThen_ok, k]

/-- White space or a comma before the closing parenthesis makes a tuple. -/
theorem parens_err_tuple {w1 w2 c t : Str} {e : Expr} (h1 : Whites w1) (h2 : Whites w2)
    (h : expression ind (c ++ (w2 ++ t)) = .ok e (w2 ++ t))
    (ht : w1 ++ w2 ≠ [] ∨ Next (· ≠ ')') t) :
    parens expression ind ('(' :: (w1 ++ (c ++ (w2 ++ t)))) = .err := by
  unfold parens
  rw [delimited_apply, char_cons, andThen_ok]
  cases w1 with
  | cons x w1 =>
    rw [List.cons_append, expression_err_white (h1 x (by simp))]
    rfl
  | nil =>
    rw [List.nil_append, h, andThen_ok]
    cases w2 with
    | cons x w2 =>
      rw [List.cons_append, char_cons_ne]
      · rfl
      · have := (white_not (h2 x (by simp))).2.2.2.2.2
        rintro rfl
        exact this (by decide)
    | nil =>
      have ht := ht.resolve_left (by simp)
      cases t with
      | nil => rfl
      | cons x t =>
        rw [List.nil_append, char_cons_ne t (next_cons (P := (· ≠ ')')).1 ht)]
        rfl

theorem op_err_open {w1 c : Str} (h1 : Whites w1) (hs : Starts c) : op ('(' :: (w1 ++ (c ++ r))) = .err := by
  cases w1 with
  | nil => rw [List.nil_append]; exact op_err_starts hs
  | cons x w1 => exact op_err_white (.inl (h1 x (by simp)))

theorem tuple_term {w1 w2 c t : Str} {e : Expr} {es : List Expr} (h1 : Whites w1) (h2 : Whites w2) (hs : Starts c)
    (h : expression ind (c ++ (w2 ++ t)) = .ok e (w2 ++ t)) (hw : Next (fun c => ¬ White c) t)
    (hr : Run (preceded (char ',') (delimited multispace0 (expression ind) multispace0)) t es (')' :: r))
    (ht : w1 ++ w2 ≠ [] ∨ Next (· ≠ ')') t) :
    termF expression ind ('(' :: (w1 ++ (c ++ (w2 ++ t)))) = .ok (.Tuple (e :: es)) r := by
  rw [termF_paren_of_op (op_err_open h1 hs), alt_apply, parens_err_tuple h1 h2 h ht, orElse_err,
    tuple_ok h1 h2 hs h hw hr]

theorem tuple0_term : termF expression ind ('(' :: ')' :: r) = .ok (.Tuple []) r := by
  rw [termF_paren_of_op (op_err_white (.inr rfl)), alt_apply]
  have : parens expression ind ('(' :: ')' :: r) = .err := by
    unfold parens
    rw [delimited_apply, char_cons, andThen_ok, expression_err_head (by decide) (by decide)]
    rfl
  rw [this, orElse_err, tuple0_ok]

theorem list0_ok {g : Str} (h : OptGapTxt ind .GTE g) :
    list expression ind ('[' :: (g ++ ']' :: r)) = .ok (.List []) r := by
  unfold list
  have hp : opt (sepList (commaSep ind) (expression ind)) (']' :: r) = .ok (some []) (']' :: r) := by
    rw [opt_apply, sepList_comma_nil (fun k => cons_expression k ind) (expression_err_head (by decide) (by decide))]
    rfl
  have := bracket0_ok (o := '[') (cl := ']') h (noGap_of_ne (by decide)) hp
  simp only [List.append_assoc, List.cons_append, List.nil_append] at this
  rw [pmap_apply, this]
  rfl

theorem sepComma_err {g : Str} {x : Char} (h : OptGapTxt ind .GTE g) (hx : x ∈ closing) (hx' : x ≠ ',') :
    commaSep ind (g ++ x :: r) = .err := commaSep_err h (noGap_of_ne (closing_facts hx).2.1) hx'

theorem list_ok {g1 g2 c cs : Str} {e : Expr} {es : List Expr} (h1 : OptGapTxt ind .GTE g1)
    (h2 : OptGapTxt ind .GTE g2) (hs : Starts c)
    (h : expression ind (c ++ (cs ++ (g2 ++ ']' :: r))) = .ok e (cs ++ (g2 ++ ']' :: r)))
    (hr : Run (preceded (commaSep ind) (expression ind)) (cs ++ (g2 ++ ']' :: r)) es (g2 ++ ']' :: r)) :
    list expression ind ('[' :: (g1 ++ (c ++ (cs ++ (g2 ++ ']' :: r))))) = .ok (.List (e :: es)) r := by
  unfold list
  have hp : opt (sepList (commaSep ind) (expression ind)) ((c ++ cs) ++ g2 ++ ']' :: r)
      = .ok (some (e :: es)) (g2 ++ ']' :: r) := by
    rw [opt_apply]
    simp only [List.append_assoc]
    rw [sepList_comma_ok (fun k => cons_expression k ind) h hr (sepComma_err h2 (by decide) (by decide))]
    rfl
  have := bracket_ok (o := '[') (cl := ']') (c := c ++ cs) h1 h2
    (by simp only [List.append_assoc]; exact hs.noGap) (noGap_of_ne (by decide)) hp
  simp only [List.append_assoc, List.cons_append, List.nil_append] at this
  rw [pmap_apply, this]
  rfl

/-! ### Records -/

theorem optGap_of_opt {ir : IR} {s t : Str} {o : Option Nat} (h : opt (gap ind ir) s = .ok o t) :
    optGap ind ir s = .ok (o.getD ind) t := by
  unfold optGap
  rw [pmap_apply, h]
  rfl

theorem loName_err_next {s : Str} (h : Next (fun c => ¬ Lower c ∧ c ≠ '_') s) : loName s = .err := by
  cases s with
  | nil => exact err_nil cons_loName
  | cons c s => exact loName_err_head (next_cons.1 h).1 (next_cons.1 h).2

theorem recordField_err {rc : ExprRec} {s : Str} (h : loName s = .err) : recordField rc ind s = .err := by
  unfold recordField
  rw [separatedPair_apply, h]
  rfl

theorem updateField_err {rc : ExprRec} {s : Str} (h : loName s = .err) : updateField rc ind s = .err := by
  unfold updateField
  rw [bind_apply, h]
  rfl

theorem cons_recordField (k : Nat) : Cons k (recordField expression ind) := by
  cases k with
  | zero => intro s hs; omega
  | succ k =>
    exact cons_bind (cons_loName _) fun _ => good_bind
      (delimited_cons (good_oGap k ind .GTE) (cons_char k _) (good_oGap k ind .GTE)).good fun _ =>
      good_bind (cons_expression k ind).good fun _ => good_pure _ _

theorem cons_updateField (k : Nat) : Cons k (updateField expression ind) := by
  cases k with
  | zero => intro s hs; omega
  | succ k =>
    exact cons_bind (cons_loName _) fun _ => good_bind (good_multispace0 k) fun _ =>
      good_bind (cons_char k _).good fun _ => good_bind (good_multispace0 k) fun _ =>
      good_bind (cons_expression k ind).good fun _ => good_pure _ _

theorem cons_updateSep (k : Nat) : Cons k (delimited (optGap ind .GTE) (char ',') (optGap ind .GTE)) :=
  delimited_cons (good_optGap k ind _) (cons_char k _) (good_optGap k ind _)

theorem record0_term {g : Str} (h : OptGapTxt ind .GTE g) :
    termF expression ind ('{' :: (g ++ '}' :: r)) = .ok (.Record []) r := by
  have hn : loName ('}' :: r) = .err := loName_err_head (by decide) (by decide)
  have h1 : recordUpdate expression ind ('{' :: (g ++ '}' :: r)) = .err := by
    unfold recordUpdate
    obtain ⟨i, e⟩ := h.optGap (r := '}' :: r) (noGap_of_ne (by decide))
    rw [delimited_apply, preceded_apply, char_cons, andThen_ok, e, andThen_ok, bind_apply, hn]
    rfl
  have h2 : record expression ind ('{' :: (g ++ '}' :: r)) = .ok (.Record []) r := by
    unfold record
    have := bracket0_ok (o := '{') (cl := '}') h (noGap_of_ne (by decide))
      (sepList_comma_nil (ind := ind) cons_recordField (recordField_err (rc := expression) (ind := ind) hn))
    simp only [List.append_assoc, List.cons_append, List.nil_append] at this
    rw [pmap_apply, this]
    rfl
  rw [termF_brace, alt_apply, h1, orElse_err, alt_apply, h2, orElse_ok]

theorem recordUpdate_err_field {g1 n t : Str} (h1 : OptGapTxt ind .GTE g1) (hn : LoName n) {o : Nat} {u : Str}
    (ht : Next (fun c => ¬ IdentChar c) t) (h2 : optGap ind .GTE t = .ok o u) (hu : Next (· ≠ '|') u) :
    recordUpdate expression ind ('{' :: (g1 ++ (n ++ t))) = .err := by
  unfold recordUpdate
  obtain ⟨i, e⟩ := h1.optGap (r := n ++ t) (loName_noGap hn)
  rw [delimited_apply, preceded_apply, char_cons, andThen_ok, e, andThen_ok, bind_apply,
    loName_complete hn ht, andThen_ok, bind_apply, h2, andThen_ok, bind_apply]
  cases u with
  | nil => rfl
  | cons x u => rw [char_cons_ne u (next_cons (P := (· ≠ '|')).1 hu)]; rfl

theorem optGap_ident {g : Str} {x : Char} (h : OptGapTxt ind .GTE g) (hx : ¬ IdentChar x) :
    Next (fun c => ¬ IdentChar c) (g ++ x :: r) := by
  rcases h with rfl | ⟨i, h⟩
  · exact next_cons.2 hx
  · exact identEnd_gap h

theorem recordField_ok {n g1 g2 c : Str} {e : Expr} (hn : LoName n) (h1 : OptGapTxt ind .GTE g1)
    (h2 : OptGapTxt ind .GTE g2) (hs : Starts c) (h : expression ind (c ++ r) = .ok e r) :
    recordField expression ind (n ++ (g1 ++ '=' :: (g2 ++ (c ++ r)))) = .ok (n, e) r := by
  unfold recordField
  obtain ⟨o1, e1⟩ := h1.opt (r := '=' :: (g2 ++ (c ++ r))) (noGap_of_ne (by decide))
  obtain ⟨o2, e2⟩ := h2.opt (r := c ++ r) hs.noGap
  have e0 := loName_complete hn (optGap_ident (r := g2 ++ (c ++ r)) (x := '=') h1 (by decide))
  simp only [separatedPair_apply, e0, andThen_ok, delimited_apply,
    e1, char_cons, e2, h]

theorem record_term {n g g1 g2 g3 c cs : Str} {e : Expr} {fs : List (Name × Expr)} (hg : OptGapTxt ind .GTE g)
    (hn : LoName n) (h1 : OptGapTxt ind .GTE g1)
    (h : recordField expression ind (n ++ (g1 ++ '=' :: (g2 ++ (c ++ (cs ++ (g3 ++ '}' :: r)))))) =
      .ok (n, e) (cs ++ (g3 ++ '}' :: r)))
    (hr : Run (preceded (commaSep ind) (recordField expression ind)) (cs ++ (g3 ++ '}' :: r)) fs (g3 ++ '}' :: r))
    (h3 : OptGapTxt ind .GTE g3) :
    termF expression ind ('{' :: (g ++ (n ++ (g1 ++ '=' :: (g2 ++ (c ++ (cs ++ (g3 ++ '}' :: r)))))))) =
      .ok (.Record ((n, e) :: fs)) r := by
  obtain ⟨o, e1⟩ := h1.optGap (r := '=' :: (g2 ++ (c ++ (cs ++ (g3 ++ '}' :: r))))) (noGap_of_ne (by decide))
  have k1 := recordUpdate_err_field (ind := ind) hg hn (optGap_ident h1 (by decide)) e1 (next_cons.2 (by decide))
  have hp := sepList_comma_ok cons_recordField h hr
    (sepComma_err h3 (by decide) (by decide))
  have k2 := bracket_ok (o := '{') (cl := '}') (ind := ind) (r := r) (p := sepList (commaSep ind) (recordField expression ind))
    (c := n ++ (g1 ++ '=' :: (g2 ++ (c ++ cs)))) (v := (n, e) :: fs) hg h3
    (by simp only [List.append_assoc]; exact loName_noGap hn)
    (noGap_of_ne (by decide)) (by simp only [List.append_assoc, List.cons_append]; exact hp)
  simp only [List.append_assoc, List.cons_append, List.nil_append] at k2
  rw [termF_brace, alt_apply, k1, orElse_err, alt_apply]
  unfold record
  rw [pmap_apply, k2]
  rfl

theorem simplifiedField_ok {n w1 w2 : Str} (hn : LoName n) (h1 : Whites w1) (h2 : Whites w2)
    (hr : Next (fun c => ¬ IdentChar c ∧ ¬ White c) r) :
    simplifiedField (w1 ++ (n ++ (w2 ++ r))) = .ok (n, .Variable [n]) r := by
  unfold simplifiedField
  have hi : Next (fun c => ¬ IdentChar c) (w2 ++ r) := by
    cases w2 with
    | nil => exact Next.imp hr fun _ h => h.1
    | cons x w => exact next_cons.2 (white_not (h2 x (by simp))).1
  rw [bind_apply, multispace0_ok h1 (starts_loName hn).notWhite, andThen_ok, bind_apply, loName_complete hn hi,
    andThen_ok, bind_apply, multispace0_ok h2 (Next.imp hr fun _ h => h.2)]
  rfl

theorem cons_simplifiedField (k : Nat) : Cons k simplifiedField := by
  cases k with
  | zero => intro s hs; omega
  | succ k => exact bind_cons (good_multispace0 _) fun _ => cons_bind (cons_loName _) fun _ =>
      good_bind (good_multispace0 k) fun _ => good_pure _ _

theorem simpFields_head {fs : List (Name × Expr)} {c : Str} (h : SimpFields fs c) :
    ∃ x t, c ++ '}' :: r = x :: t ∧ (x = ',' ∨ x = '}') := by
  cases h with
  | nil => exact ⟨_, _, rfl, .inr rfl⟩
  | cons => exact ⟨_, _, rfl, .inl rfl⟩

theorem simpFields_next {fs : List (Name × Expr)} {c : Str} (h : SimpFields fs c) :
    Next (fun c => ¬ IdentChar c ∧ ¬ White c) (c ++ '}' :: r) := by
  obtain ⟨x, t, e, hx⟩ := simpFields_head (r := r) h
  rw [e]
  refine next_cons.2 ?_
  rcases hx with rfl | rfl <;> decide

theorem run_simpFields {fs : List (Name × Expr)} {c : Str} (h : SimpFields fs c) :
    Run (preceded (char ',') simplifiedField) (c ++ '}' :: r) fs ('}' :: r) := by
  induction h with
  | nil => exact .nil _
  | cons hn h1 h2 hf ih =>
    refine run_cons (fun k => ?_) ?_ ih
    · cases k with
      | zero => intro s hs; omega
      | succ k => exact cons_preceded (cons_char _ _) (cons_simplifiedField k).good
    · simp only [List.append_assoc, List.cons_append, List.nil_append]
      rw [preceded_apply, char_cons, andThen_ok, simplifiedField_ok hn h1 h2 (simpFields_next hf)]

theorem simplifiedRecord_ok {fs : List (Name × Expr)} {c : Str} (h : SimpBody fs c) :
    simplifiedRecord ('{' :: (c ++ '}' :: r)) = .ok (.Record fs) r := by
  unfold simplifiedRecord
  have e : sepList (char ',') simplifiedField (c ++ '}' :: r) = .ok fs ('}' :: r) := by
    refine (sepList_iff (fun k => cons_char k _) cons_simplifiedField).2 ?_
    cases h with
    | nil =>
      refine .inl ⟨rfl, rfl, ?_⟩
      unfold simplifiedField
      have : multispace0 ('}' :: r) = .ok [] ('}' :: r) :=
        multispace0_ok (w := []) (by simp [Whites]) (next_cons.2 (by decide))
      rw [List.nil_append, bind_apply, this, andThen_ok, bind_apply, loName_err_head (by decide) (by decide)]
      rfl
    | cons hn h1 h2 hf =>
      refine .inr ⟨_, _, _, rfl, ?_, run_simpFields hf, ?_⟩
      · simp only [List.append_assoc]
        exact simplifiedField_ok hn h1 h2 (simpFields_next hf)
      · rw [preceded_apply, char_cons_ne _ (by decide)]; rfl
  rw [pmap_apply, delimited_apply, char_cons, andThen_ok, e, andThen_ok, char_cons]
  rfl

theorem whites_opt {w : Str} (h : Whites w) (hr : NoGap r) : ∃ w', Whites w' ∧
    (∃ o, opt (gap ind .GTE) (w ++ r) = .ok o (w' ++ r)) ∧ opt (gap ind .GTE) (w' ++ r) = .ok none (w' ++ r) := by
  obtain ⟨w', o, h1, h2, h3⟩ := opt_gap_whites (ind := ind) (ir := .GTE) h hr
  exact ⟨w', h1, ⟨o, h2⟩, opt_none h3⟩

theorem white_notLo {x : Char} (h : White x) : ¬ Lower x ∧ x ≠ '_' := by
  have := (white_not h).1
  exact ⟨(ident_digit this).2.1, (ident_digit this).2.2.2⟩

theorem simp_term {f : Name × Expr} {fs : List (Name × Expr)} {c : Str} (h : SimpBody (f :: fs) c) :
    termF expression ind ('{' :: (c ++ '}' :: r)) = .ok (.Record (f :: fs)) r := by
  have k3 := simplifiedRecord_ok (r := r) h
  cases h with
  | @cons n w1 w2 fs cs hn h1 h2 hf =>
    simp only [List.append_assoc] at k3 ⊢
    obtain ⟨x, t, ex, hx⟩ := simpFields_head (r := r) hf
    rw [ex] at k3 ⊢
    have hxw : x ≠ '|' ∧ x ≠ '=' ∧ ¬ IdentChar x ∧ x ≠ ' ' ∧ x ≠ '\n' ∧ x ≠ '-' := by
      rcases hx with rfl | rfl <;> decide
    obtain ⟨w1', k4, ⟨o1, k5⟩, k6⟩ := whites_opt (ind := ind) (r := n ++ (w2 ++ x :: t)) h1 (loName_noGap hn)
    obtain ⟨w2', k7, ⟨o2, k8⟩, k9⟩ := whites_opt (ind := ind) (r := x :: t) h2 (noGap_of_ne hxw.2.2.2)
    have hi : Next (fun c => ¬ IdentChar c) (w2 ++ x :: t) := by
      cases w2 with
      | nil => exact next_cons.2 hxw.2.2.1
      | cons y w => exact next_cons.2 (white_not (h2 y (by simp))).1
    have hnx : ∀ y, y = '|' ∨ y = '=' → char y (w2' ++ x :: t) = .err := by
      intro y hy
      cases w2' with
      | nil =>
        refine char_cons_ne t ?_
        rcases hy with rfl | rfl
        · exact hxw.1
        · exact hxw.2.1
      | cons z w =>
        refine char_cons_ne _ ?_
        have := (white_not (k7 z (by simp))).2.2.2.2.2
        rintro rfl
        rcases hy with rfl | rfl <;> exact this (by decide)
    have e1 : recordUpdate expression ind ('{' :: (w1 ++ (n ++ (w2 ++ x :: t)))) = .err := by
      unfold recordUpdate
      rw [delimited_apply, preceded_apply, char_cons, andThen_ok, optGap_of_opt k5, andThen_ok, bind_apply]
      cases w1' with
      | cons y w =>
        rw [List.cons_append, loName_err_head (white_notLo (k4 y (by simp))).1 (white_notLo (k4 y (by simp))).2]
        rfl
      | nil =>
        rw [List.nil_append, loName_complete hn hi, andThen_ok, bind_apply, optGap_of_opt k8, andThen_ok,
          bind_apply, hnx _ (.inl rfl)]
        rfl
    have e2 : record expression ind ('{' :: (w1 ++ (n ++ (w2 ++ x :: t)))) = .err := by
      unfold record
      have hf : recordField expression ind (w1' ++ (n ++ (w2 ++ x :: t))) = .err := by
        unfold recordField
        rw [separatedPair_apply]
        cases w1' with
        | cons y w =>
          rw [List.cons_append, loName_err_head (white_notLo (k4 y (by simp))).1 (white_notLo (k4 y (by simp))).2]
          rfl
        | nil =>
          rw [List.nil_append, loName_complete hn hi, andThen_ok, delimited_apply, k8, andThen_ok,
            hnx _ (.inr rfl)]
          rfl
      rw [pmap_apply, delimited_apply, preceded_apply, char_cons, andThen_ok, k5, andThen_ok,
        sepList_comma_nil cons_recordField hf, andThen_ok, terminated_apply, k6, andThen_ok]
      have : char '}' (w1' ++ (n ++ (w2 ++ x :: t))) = .err := by
        cases w1' with
        | cons y w =>
          refine char_cons_ne _ ?_
          have := (white_not (k4 y (by simp))).2.2.2.2.2
          rintro rfl
          exact this (by decide)
        | nil =>
          obtain ⟨y, u, rfl, hy⟩ := loName_head hn
          refine char_cons_ne _ ?_
          rintro rfl
          revert hy; decide
      rw [this]
      rfl
    rw [termF_brace, alt_apply, e1, orElse_err, alt_apply, e2, orElse_err, k3]

theorem updateField_ok {n w1 w2 c : Str} {e : Expr} (hn : LoName n) (h1 : Whites w1)
    (h2 : Whites w2) (hs : Starts c) (h : expression ind (c ++ r) = .ok e r) :
    updateField expression ind (n ++ (w1 ++ '=' :: (w2 ++ (c ++ r)))) = .ok (n, e) r := by
  unfold updateField
  have hi : Next (fun c => ¬ IdentChar c) (w1 ++ '=' :: (w2 ++ (c ++ r))) := by
    cases w1 with
    | nil => exact next_cons.2 (by decide)
    | cons y w => exact next_cons.2 (white_not (h1 y (by simp))).1
  have e1 := multispace0_ok (r := '=' :: (w2 ++ (c ++ r))) h1 (next_cons.2 (by decide))
  have e2 := multispace0_ok (r := c ++ r) h2 hs.notWhite
  simp only [bind_apply, loName_complete hn hi, andThen_ok, e1, char_cons, e2, h]
  rfl

theorem updateSep_ok {g1 g2 : Str} (h1 : OptGapTxt ind .GTE g1) (h2 : OptGapTxt ind .GTE g2)
    (hr : NoGap r) : delimited (optGap ind .GTE) (char ',') (optGap ind .GTE) (g1 ++ ',' :: (g2 ++ r)) = .ok ',' r := by
  obtain ⟨o1, e1⟩ := h1.optGap (r := ',' :: (g2 ++ r)) (noGap_of_ne (by decide))
  obtain ⟨o2, e2⟩ := h2.optGap hr
  simp only [delimited_apply, e1, andThen_ok, char_cons, e2]

theorem updateSep_err {g : Str} {x : Char} (h : OptGapTxt ind .GTE g) (hx : x ∈ closing) (hx' : x ≠ ',') :
    delimited (optGap ind .GTE) (char ',') (optGap ind .GTE) (g ++ x :: r) = .err := by
  obtain ⟨o1, e1⟩ := h.optGap (r := x :: r) (noGap_of_ne (closing_facts hx).2.1)
  simp only [delimited_apply, e1, andThen_ok, char_cons_ne _ hx', andThen_err]

theorem update_term {n g1 g2 w t u : Str} {fs : List (Name × Expr)} {i : Nat} (h1 : OptGapTxt ind .GTE g1)
    (hn : LoName n) (h2 : OptGapTxt ind .GTE g2) (hw : Whites w) (ht : Next (fun c => ¬ White c) t)
    (h : sepList (delimited (optGap ind .GTE) (char ',') (optGap ind .GTE)) (updateField expression ind) t = .ok fs u)
    (hu : gap ind .GTE u = .ok i ('}' :: r)) :
    termF expression ind ('{' :: (g1 ++ (n ++ (g2 ++ '|' :: (w ++ t))))) = .ok (.RecordUpdate n fs) r := by
  rw [termF_brace, alt_apply]
  have : recordUpdate expression ind ('{' :: (g1 ++ (n ++ (g2 ++ '|' :: (w ++ t))))) = .ok (.RecordUpdate n fs) r := by
    unfold recordUpdate
    obtain ⟨o1, e1⟩ := h1.optGap (r := n ++ (g2 ++ '|' :: (w ++ t))) (loName_noGap hn)
    obtain ⟨o2, e2⟩ := h2.optGap (r := '|' :: (w ++ t)) (noGap_of_ne (by decide))
    have e0 := loName_complete hn (optGap_ident (r := w ++ t) (x := '|') h2 (by decide))
    simp only [delimited_apply, preceded_apply, terminated_apply, char_cons, andThen_ok, e1, bind_apply,
      e0, e2, multispace0_ok hw ht, h, hu, pure_apply]
  rw [this, orElse_ok]

/-! ### A record update without a gap before the brace -/

theorem gap_whites {g : Str} {x : Char} {t : Str} {ir : IR} (h : OptGapTxt ind ir g) (hx : ¬ White x) :
    ∃ w u, g ++ x :: t = w ++ u ∧ Whites w ∧ Next (fun c => ¬ White c) u ∧ (u = x :: t ∨ ∃ v, u = '-' :: v) := by
  rcases h with rfl | ⟨i, ls, n, rfl, -⟩
  · exact ⟨[], x :: t, rfl, by simp [Whites], next_cons.2 hx, .inl rfl⟩
  · induction ls with
    | nil =>
      refine ⟨sp n, x :: t, by simp [gapText, Line.text, commentText], fun c hc => ?_, next_cons.2 hx, .inl rfl⟩
      rw [mem_sp hc]; decide
    | cons l ls ih =>
      obtain ⟨w, u, e, hw, hu, h⟩ := ih
      obtain ⟨m, o⟩ := l
      cases o with
      | none =>
        refine ⟨sp m ++ '\n' :: w, u, by simp [gapText, Line.text, commentText, e], fun c hc => ?_, hu, h⟩
        rcases List.mem_append.1 hc with hc | hc
        · rw [mem_sp hc]; decide
        · rcases List.mem_cons.1 hc with rfl | hc
          · decide
          · exact hw c hc
      | some v =>
        refine ⟨sp m, '-' :: ('-' :: (v ++ '\n' :: (gapText ls ⟨n, none⟩ ++ x :: t))), ?_, fun c hc => ?_, ?_,
          .inr ⟨_, rfl⟩⟩
        · simp [gapText, Line.text, commentText]
        · rw [mem_sp hc]; decide
        · exact next_cons.2 (by decide)

theorem simplifiedRecord_err_sep {n g1 g2 t : Str} {z : Char} (h1 : OptGapTxt ind .GTE g1) (hn : LoName n)
    (h2 : OptGapTxt ind .GTE g2) (hz : z = '|' ∨ z = '=') :
    simplifiedRecord ('{' :: (g1 ++ (n ++ (g2 ++ z :: t)))) = .err := by
  unfold simplifiedRecord
  rw [pmap_apply, delimited_apply, char_cons, andThen_ok]
  have hnh := loName_head hn
  obtain ⟨y, v, en, hy⟩ := hnh
  have hyw : ¬ White y := by
    have := (starts_loName hn).notWhite (r := [])
    rw [en] at this
    exact next_cons.1 this
  obtain ⟨w, u, e, hw, hu, h⟩ := gap_whites (x := y) (t := v ++ (g2 ++ z :: t)) h1 hyw
  have e' : g1 ++ (n ++ (g2 ++ z :: t)) = w ++ u := by rw [← e, en]; rfl
  rw [e']
  rcases h with rfl | ⟨v', rfl⟩
  · obtain ⟨w2, u2, e2, hw2, hu2, h⟩ := gap_whites (x := z) (t := t) h2 (by rcases hz with rfl | rfl <;> decide)
    have hx : ∃ x u, u2 = x :: u ∧ x ≠ ',' ∧ x ≠ '}' ∧ ¬ IdentChar x ∧ ¬ White x := by
      rcases h with rfl | ⟨v', rfl⟩
      · exact ⟨_, _, rfl, by rcases hz with rfl | rfl <;> decide⟩
      · exact ⟨_, _, rfl, by decide⟩
    obtain ⟨x, u, rfl, hx1, hx2, hx3, hx4⟩ := hx
    have hf := simplifiedField_ok (r := x :: u) hn hw hw2 (next_cons.2 ⟨hx3, hx4⟩)
    rw [← List.cons_append, ← en, e2]
    rw [(sepList_iff (fun k => cons_char k ',') cons_simplifiedField).2 (.inr ⟨_, [], _, rfl, hf, .nil _, by
      rw [preceded_apply, char_cons_ne _ hx1]; rfl⟩), andThen_ok, char_cons_ne _ hx2]
    rfl
  · have hf : simplifiedField (w ++ '-' :: v') = .err := by
      unfold simplifiedField
      rw [bind_apply, multispace0_ok hw hu, andThen_ok, bind_apply, loName_err_head (by decide) (by decide)]
      rfl
    rw [(sepList_iff (fun k => cons_char k ',') cons_simplifiedField).2 (.inl ⟨rfl, rfl, hf⟩), andThen_ok]
    have : char '}' (w ++ '-' :: v') = .err := by
      cases w with
      | nil => exact char_cons_ne _ (by decide)
      | cons z w =>
        refine char_cons_ne _ ?_
        rintro rfl
        exact absurd (hw '}' (by simp)) (by decide)
    rw [this]
    rfl

theorem update_no_gap {n g1 g2 w t : Str} {fs : List (Name × Expr)} (h1 : OptGapTxt ind .GTE g1)
    (hn : LoName n) (h2 : OptGapTxt ind .GTE g2) (hw : Whites w) (ht : Next (fun c => ¬ White c) t)
    (h : sepList (delimited (optGap ind .GTE) (char ',') (optGap ind .GTE)) (updateField expression ind) t =
      .ok fs ('}' :: r)) :
    termF expression ind ('{' :: (g1 ++ (n ++ (g2 ++ '|' :: (w ++ t))))) = .err := by
  obtain ⟨o1, e1⟩ := h1.optGap (r := n ++ (g2 ++ '|' :: (w ++ t))) (loName_noGap hn)
  obtain ⟨o2, e2⟩ := h2.optGap (r := '|' :: (w ++ t)) (noGap_of_ne (by decide))
  obtain ⟨o3, e3⟩ := h1.opt (r := n ++ (g2 ++ '|' :: (w ++ t))) (loName_noGap hn)
  obtain ⟨o4, e4⟩ := h2.opt (r := '|' :: (w ++ t)) (noGap_of_ne (by decide))
  have e0 := loName_complete hn (optGap_ident (r := w ++ t) (x := '|') h2 (by decide))
  have k1 : recordUpdate expression ind ('{' :: (g1 ++ (n ++ (g2 ++ '|' :: (w ++ t))))) = .err := by
    unfold recordUpdate
    simp only [delimited_apply, preceded_apply, terminated_apply, char_cons, andThen_ok, e1, bind_apply,
      e0, e2, multispace0_ok hw ht, h, pure_apply, gap_none (noGap_of_ne (c := '}') (t := r) (by decide)) ind .GTE,
      andThen_err]
  have k2 : record expression ind ('{' :: (g1 ++ (n ++ (g2 ++ '|' :: (w ++ t))))) = .err := by
    unfold record
    have hf : recordField expression ind (n ++ (g2 ++ '|' :: (w ++ t))) = .err := by
      unfold recordField
      rw [separatedPair_apply, e0, andThen_ok, delimited_apply, e4, andThen_ok, char_cons_ne _ (by decide)]
      rfl
    obtain ⟨o5, e5⟩ := Spec.OptGapTxt.opt (ind := ind) (ir := .GTE) (g := []) (r := n ++ (g2 ++ '|' :: (w ++ t)))
      (.inl rfl) (loName_noGap hn)
    rw [List.nil_append] at e5
    rw [pmap_apply, delimited_apply, preceded_apply, char_cons, andThen_ok, e3, andThen_ok,
      sepList_comma_nil cons_recordField hf, andThen_ok, terminated_apply, e5, andThen_ok]
    obtain ⟨y, u, rfl, hy⟩ := loName_head hn
    have : char '}' (y :: u ++ (g2 ++ '|' :: (w ++ t))) = .err := by
      refine char_cons_ne _ ?_
      rintro rfl
      revert hy; decide
    rw [this]
    rfl
  rw [termF_brace, alt_apply, k1, orElse_err, alt_apply, k2, orElse_err, simplifiedRecord_err_sep h1 hn h2 (.inl rfl)]
end

end ElmParser
