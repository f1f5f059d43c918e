import Verif.Proofs.ExprTerms

/-! Completeness of the expression parser: every text of the (strict) concrete syntax is
read back as the tree it is a layout of. -/
namespace ElmParser
open Spec

theorem cons_termE (k ind : Nat) : Cons k (termF expression ind) := cons_term k ind
theorem cons_letEntryE (k ind : Nat) : Cons k (letEntry expression ind) :=
  (cons_letEntry (fun ind => (cons_expression k ind).good) ind).mono (by omega)
theorem cons_caseBranchE (k ind : Nat) : Cons k (caseBranch expression ind) := by
  cases k with
  | zero => intro s hs; omega
  | succ k =>
    exact cons_bind (cons_expression _ ind) fun _ => good_bind (cons_gap k ind _).good fun _ =>
      good_bind (cons_tag k _ _).good fun _ => good_bind (cons_gap k ind _).good fun _ =>
      good_bind (cons_expression k _).good fun _ => good_pure _ _
theorem cons_functionDefinitionE (k ind : Nat) : Cons k (functionDefinitionF expression ind) :=
  (cons_functionDefinitionF (fun ind => (cons_expression k ind).good) ind).mono (by omega)

theorem cons_preceded' {α β : Type} {p : Parser α} {q : Parser β} (hp : ∀ k, Cons k p) (hq : ∀ k, Cons k q)
    (k : Nat) : Cons k (preceded p q) := by
  cases k with
  | zero => intro s hs; omega
  | succ k => exact cons_preceded (hp _) (hq k).good

/-! ### Applications and operators -/

section
variable {ind : Nat} {r : Str}

theorem applicationOrVar_ok {s t : Str} {e : Expr} {es : List Expr} (h1 : termF expression ind s = .ok e t)
    (h2 : Run (preceded (gap ind .GT) (termF expression ind)) t es r) (hr : ArgStop ind r) :
    applicationOrVar expression ind s = .ok (es.foldl .Application e) r :=
  applicationOrVar_eq_ok.2 ⟨e, es, rfl, (sepList_iff (fun k => cons_gap k ind .GT) (fun k => cons_termE k ind)).2
    (.inr ⟨e, es, t, rfl, h1, h2, hr.arg⟩)⟩

theorem expression_of_binary {s : Str} {e : Expr} (h : binary expression ind s = .ok e r) :
    expression ind s = .ok e r := by
  rw [expression_unfold]
  unfold expressionF
  rw [alt_apply, h, orElse_ok]

theorem eApp_ok {s : Str} {e : Expr} (h : applicationOrVar expression ind s = .ok e r) (hr : Stop ind r) :
    expression ind s = .ok e r := by
  refine expression_of_binary ?_
  unfold binary
  rw [bind_apply, h, andThen_ok, bind_apply, opt_none hr.binaryTail]
  rfl

theorem infixOp_noGap {o w t : Str} (h : InfixOp o) (hw : Whites w) (hne : w ≠ []) : NoGap (o ++ (w ++ t)) := by
  rcases h with rfl | ⟨⟨hne', ho, -⟩, hd⟩
  · exact noGap_of_ne (by decide)
  · cases o with
    | nil => exact absurd rfl hne'
    | cons x o =>
      have hx := ho x (by simp)
      refine ⟨next_cons.2 ⟨?_, ?_⟩, ?_⟩
      · rintro rfl; revert hx; decide
      · rintro rfl; revert hx; decide
      · rintro u e
        cases o with
        | nil =>
          cases w with
          | nil => exact hne rfl
          | cons y w =>
            simp only [List.cons_append, List.nil_append, List.cons.injEq] at e
            have := hw y (by simp)
            rw [e.2.1] at this
            revert this; decide
        | cons y o =>
          simp only [List.cons_append, List.cons.injEq] at e
          obtain ⟨rfl, rfl, -⟩ := e
          exact hd o rfl

theorem infixOp_start {o w t : Str} (h : InfixOp o) (hw : Whites w) (hne : w ≠ []) : OpStart (o ++ (w ++ t)) := by
  cases w with
  | nil => exact absurd rfl hne
  | cons x w => exact ⟨o, x, _, rfl, hw x (by simp), h.imp id fun h => h.1⟩

theorem operatorOrAs_ok {o w t : Str} (h : InfixOp o) (hw : Whites w) (hne : w ≠ []) :
    operatorOrAs (o ++ (w ++ t)) = .ok (.Variable [o]) (w ++ t) := by
  unfold operatorOrAs
  rcases h with rfl | ⟨h, -⟩
  · rw [pmap_apply, alt_apply, tag_append]; rfl
  · have e : operator (o ++ (w ++ t)) = .ok o (w ++ t) := by
      refine operator_iff.2 ⟨rfl, h, ?_⟩
      cases w with
      | nil => exact absurd rfl hne
      | cons x w => exact next_cons.2 (white_not (hw x (by simp))).2.1
    obtain ⟨hne', ho, -⟩ := h
    cases o with
    | nil => exact absurd rfl hne'
    | cons x o =>
      have hx : x ≠ 'a' := by
        rintro rfl
        have := ho 'a' (by simp)
        revert this; decide
      rw [List.cons_append] at e ⊢
      rw [pmap_apply, alt_apply, tag_cons_ne hx, orElse_err, e]
      rfl

theorem argStop_op {i : Nat} {g o w t : Str} (hg : GapTxt ind .GTE i g) (h : InfixOp o) (hw : Whites w)
    (hne : w ≠ []) : ArgStop ind (g ++ (o ++ (w ++ t))) := by
  refine ⟨termStop_gap hg, ?_⟩
  rw [preceded_apply]
  rcases err_or_ok (fun k => cons_gap k ind .GT) (g ++ (o ++ (w ++ t))) with e | ⟨j, u, e, -⟩
  · rw [e]; rfl
  · obtain ⟨ls, n, hgap, -⟩ := hg.isGap (infixOp_noGap (t := t) h hw hne)
    obtain ⟨rfl, -⟩ := (gap_of_gap hgap ind .GT).1 e
    rw [e, andThen_ok, termF_err_opStart (infixOp_start h hw hne)]

theorem binop_ok {s g o w d : Str} {a b : Expr} {i : Nat} (hg : GapTxt ind .GTE i g) (ho : InfixOp o)
    (hw : Whites w) (hne : w ≠ []) (hd : Starts d)
    (h1 : applicationOrVar expression ind s = .ok a (g ++ (o ++ (w ++ (d ++ r)))))
    (h2 : expression ind (d ++ r) = .ok b r) :
    expression ind s = .ok (.BinOp (.Variable [o]) a b) r := by
  refine expression_of_binary ?_
  unfold binary
  have e : binaryTail expression ind (g ++ (o ++ (w ++ (d ++ r)))) = .ok (.Variable [o], b) r := by
    unfold binaryTail
    have e2 : multispace (w ++ (d ++ r)) = .ok w (d ++ r) := multispace_iff.2 ⟨rfl, hne, hw, hd.notWhite⟩
    simp only [bind_apply, hg.gap (infixOp_noGap ho hw hne), andThen_ok, operatorOrAs_ok ho hw hne, e2, h2]
    rfl
  rw [bind_apply, h1, andThen_ok, bind_apply, opt_apply, e]
  rfl

/-! ### Keywords -/

theorem expression_let {t : Str} (h : Next (fun c => ¬ IdentChar c) t) :
    expression ind (c!"let" ++ t) = letExpression expression ind (c!"let" ++ t) := by
  have h1 : termF expression ind (c!"let" ++ t) = .err := termF_keyword (by decide) h
  rw [expression_unfold]
  unfold expressionF
  simp only [alt_apply, binary_err h1, orElse_err]
  have h2 : caseExpression expression ind (c!"let" ++ t) = .err := caseExpression_err (tag_cons_ne (by decide))
  have h3 : ifExpression expression ind (c!"let" ++ t) = .err := ifExpression_err (tag_cons_ne (by decide))
  have h4 : lambda expression ind (c!"let" ++ t) = .err := lambda_err (char_cons_ne _ (by decide))
  rw [h2, h3, h4]
  simp only [orElse_err_right]

theorem expression_case {t : Str} (h : Next (fun c => ¬ IdentChar c) t) :
    expression ind (c!"case" ++ t) = caseExpression expression ind (c!"case" ++ t) := by
  have h1 : termF expression ind (c!"case" ++ t) = .err := termF_keyword (by decide) h
  rw [expression_unfold]
  unfold expressionF
  simp only [alt_apply, binary_err h1, orElse_err]
  have h2 : letExpression expression ind (c!"case" ++ t) = .err := letExpression_err (tag_cons_ne (by decide))
  have h3 : ifExpression expression ind (c!"case" ++ t) = .err := ifExpression_err (tag_cons_ne (by decide))
  have h4 : lambda expression ind (c!"case" ++ t) = .err := lambda_err (char_cons_ne _ (by decide))
  rw [h2, h3, h4]
  simp only [orElse_err_right, orElse_err]

theorem expression_if {t : Str} (h : Next (fun c => ¬ IdentChar c) t) :
    expression ind (c!"if" ++ t) = ifExpression expression ind (c!"if" ++ t) := by
  have h1 : termF expression ind (c!"if" ++ t) = .err := termF_keyword (by decide) h
  rw [expression_unfold]
  unfold expressionF
  simp only [alt_apply, binary_err h1, orElse_err]
  have h2 : letExpression expression ind (c!"if" ++ t) = .err := letExpression_err (tag_cons_ne (by decide))
  have h3 : caseExpression expression ind (c!"if" ++ t) = .err := caseExpression_err (tag_cons_ne (by decide))
  have h4 : lambda expression ind (c!"if" ++ t) = .err := lambda_err (char_cons_ne _ (by decide))
  rw [h2, h3, h4]
  simp only [orElse_err_right, orElse_err]

theorem expression_lambda {t : Str} :
    expression ind ('\\' :: t) = lambda expression ind ('\\' :: t) := by
  have h1 : termF expression ind ('\\' :: t) = .err := termF_err_head (by decide)
  rw [expression_unfold]
  unfold expressionF
  simp only [alt_apply, binary_err h1, orElse_err]
  rw [letExpression_err (tag_cons_ne (by decide)), caseExpression_err (tag_cons_ne (by decide)),
    ifExpression_err (tag_cons_ne (by decide))]
  simp only [orElse_err]

theorem closer_keyword {k t : Str} (hk : k ∈ [c!"then", c!"else", c!"of", c!"in"])
    (ht : Next (fun c => ¬ IdentChar c) t) : Closer (k ++ t) := .inr (.inr ⟨k, t, hk, rfl, ht⟩)

theorem noGap_keyword {k t : Str} (hk : k ∈ [c!"then", c!"else", c!"of", c!"in"]) : NoGap (k ++ t) := by
  simp only [List.mem_cons, List.not_mem_nil, or_false] at hk
  rcases hk with rfl | rfl | rfl | rfl <;> exact noGap_of_ne (by decide)

theorem stop_keyword {ind' i : Nat} {ir : IR} {g k t : Str} (hg : GapTxt ind' ir i g)
    (hk : k ∈ [c!"then", c!"else", c!"of", c!"in"]) (ht : Next (fun c => ¬ IdentChar c) t) :
    StopAt 0 (g ++ (k ++ t)) := stop_gap_closer hg (noGap_keyword hk) (closer_keyword hk ht)

theorem noGap_arrow {t : Str} : NoGap (c!"->" ++ t) := by
  refine ⟨next_cons.2 (by decide), ?_⟩
  rintro u e
  simp at e

theorem if_ok {g1 c1 g2 g3 c2 g4 g5 c3 : Str} {e1 e2 e3 : Expr} {i1 i2 i3 i4 i5 : Nat}
    (h1 : GapTxt ind .GTE i1 g1) (h2 : GapTxt ind .GTE i2 g2) (h3 : GapTxt ind .GTE i3 g3)
    (h4 : GapTxt ind .GTE i4 g4) (h5 : GapTxt ind .GTE i5 g5) (hs1 : Starts c1) (hs2 : Starts c2) (hs3 : Starts c3)
    (k1 : ∀ r, StopAt 0 r → expression ind (c1 ++ r) = .ok e1 r)
    (k2 : ∀ r, StopAt 0 r → expression i3 (c2 ++ r) = .ok e2 r)
    (k3 : expression i5 (c3 ++ r) = .ok e3 r) :
    expression ind (c!"if" ++ (g1 ++ (c1 ++ (g2 ++ (c!"then" ++ (g3 ++ (c2 ++ (g4 ++ (c!"else" ++ (g5 ++ (c3 ++ r)))))))))))
      = .ok (.If e1 e2 e3) r := by
  rw [expression_if (identEnd_gap h1)]
  unfold ifExpression
  rw [bind_apply, tag_append, andThen_ok, bind_apply, h1.gap hs1.noGap, andThen_ok, bind_apply,
    k1 _ (stop_keyword h2 (by decide) (identEnd_gap h3)), andThen_ok, bind_apply, h2.gap (noGap_keyword (by decide)),
    andThen_ok, bind_apply, tag_append, andThen_ok, bind_apply, h3.gap hs2.noGap, andThen_ok, bind_apply,
    k2 _ (stop_keyword h4 (by decide) (identEnd_gap h5)), andThen_ok, bind_apply, h4.gap (noGap_keyword (by decide)),
    andThen_ok, bind_apply, tag_append, andThen_ok, bind_apply, h5.gap hs3.noGap, andThen_ok, bind_apply, k3]
  rfl

/-- After the arguments of a lambda there is an arrow and no further argument. -/
theorem lambda_end {i : Nat} {ir : IR} {g t : Str} (hg : GapTxt ind ir i g) :
    preceded space1 (termF expression ind) (g ++ (c!"->" ++ t)) = .err := by
  obtain ⟨ls, n, rfl, -⟩ := hg
  have hu : Next (fun c => c ≠ ' ' ∧ c ≠ '\t') (gapTail ls ⟨n, none⟩ ++ (c!"->" ++ t)) ∧
      termF expression ind (gapTail ls ⟨n, none⟩ ++ (c!"->" ++ t)) = .err := by
    cases ls with
    | nil => exact ⟨next_cons.2 (by decide), termF_sign_err (.inr rfl) (next_cons.2 (by decide))⟩
    | cons l ls =>
      cases hc : l.comment with
      | none =>
        simp only [gapTail, hc, commentText, List.nil_append, List.cons_append]
        exact ⟨next_cons.2 (by decide), termF_err_head (by decide)⟩
      | some x =>
        simp only [gapTail, hc, commentText, List.append_assoc, List.cons_append]
        exact ⟨next_cons.2 (by decide), termF_sign_err (.inr rfl) (next_cons.2 (by decide))⟩
  rw [gapText_eq, List.append_assoc, preceded_apply]
  revert hu
  generalize gapTail ls ⟨n, none⟩ ++ (c!"->" ++ t) = u
  rintro ⟨h1, h2⟩
  generalize gapLead ls ⟨n, none⟩ = m
  cases m with
  | zero =>
    rcases err_or_ok cons_space1 u with e | ⟨w, s, e, -⟩
    · simp only [sp, List.replicate, List.nil_append, e]; rfl
    · exfalso
      obtain ⟨rfl, ⟨hne, hw⟩, -⟩ := space1_iff.1 e
      cases w with
      | nil => exact hne rfl
      | cons x w =>
        have := next_cons.1 h1
        rcases hw x (by simp) with rfl | rfl
        · exact this.1 rfl
        · exact this.2 rfl
  | succ m =>
    have e : space1 (sp (m + 1) ++ u) = .ok (sp (m + 1)) u :=
      space1_iff.2 ⟨rfl, ⟨by simp [sp], fun c hc => .inl (mem_sp hc)⟩, h1⟩
    rw [e, andThen_ok, h2]

theorem lambda_ok {g1 g2 d s t : Str} {a e : Expr} {as : List Expr} {i1 i : Nat}
    (h1 : GapTxt ind .GTE i1 g1) (h2 : GapTxt ind .GTE i g2) (hd : Starts d)
    (k1 : termF expression ind s = .ok a t)
    (k2 : Run (preceded space1 (termF expression ind)) t as (g1 ++ (c!"->" ++ (g2 ++ (d ++ r)))))
    (k3 : expression i (d ++ r) = .ok e r) :
    expression ind ('\\' :: s) = .ok (.Lambda (a :: as) e) r := by
  rw [expression_lambda]
  unfold lambda
  have e1 : sepNonemptyList space1 (termF expression ind) s = .ok (a :: as) (g1 ++ (c!"->" ++ (g2 ++ (d ++ r)))) :=
    (sepNonemptyList_iff cons_space1 (fun k => cons_termE k ind)).2 ⟨a, as, t, rfl, k1, k2, lambda_end h1⟩
  rw [bind_apply, char_cons, andThen_ok, bind_apply, e1, andThen_ok, bind_apply, h1.gap noGap_arrow, andThen_ok,
    bind_apply, tag_append, andThen_ok, bind_apply, h2.gap hd.noGap, andThen_ok, bind_apply, k3]
  rfl

/-! ### Functions -/

theorem functionNameOrOp_ok {n m : Str} (h : FnName n m) (hr : Next (fun c => ¬ IdentChar c) r) :
    functionNameOrOp (m ++ r) = .ok n r := by
  unfold functionNameOrOp
  cases h with
  | lo h => rw [alt_apply, loName_complete h hr, orElse_ok]
  | op h =>
    have e : operator (n ++ ')' :: r) = .ok n (')' :: r) := operator_iff.2 ⟨rfl, h, next_cons.2 (by decide)⟩
    simp only [List.append_assoc, List.cons_append, List.nil_append]
    rw [alt_apply, loName_err_head (by decide) (by decide), orElse_err, delimited_apply, char_cons, andThen_ok, e]
    rfl

theorem spaces_ok {w : Str} (h : SpacesTxt w) (hr : Next (· ≠ ' ') r) : spaces (w ++ r) = .ok w r :=
  spaces_iff.2 ⟨rfl, h.1, h.2, hr⟩

theorem fargs_end {w t : Str} {x : Char} (h : SpacesTxt w) (hx : ¬ TermHead x) (hx' : x ≠ ' ') :
    preceded spaces (termF expression ind) (w ++ x :: t) = .err := by
  have := spaces_ok (r := x :: t) h (next_cons.2 hx')
  rw [preceded_apply, this, andThen_ok, termF_err_head hx]

theorem defn_ok {n m t w g d : Str} {as : List Expr} {e : Expr} {i : Nat} (hn : FnName n m)
    (ht : Next (fun c => ¬ IdentChar c) t)
    (ha : Run (preceded spaces (termF expression ind)) t as (w ++ '=' :: (g ++ (d ++ r)))) (hw : SpacesTxt w)
    (hg : GapTxt ind .GT i g) (hd : Starts d) (h : expression i (d ++ r) = .ok e r) :
    functionDefinitionF expression ind (m ++ t) = .ok (.mk n as e) r := by
  unfold functionDefinitionF
  rw [bind_apply, functionNameOrOp_ok hn ht, andThen_ok, bind_apply,
    many0_ok_of_run ha (fargs_end hw (by decide) (by decide)), andThen_ok, bind_apply,
    spaces_ok hw (next_cons.2 (by decide)), andThen_ok, bind_apply, char_cons, andThen_ok, bind_apply,
    hg.gap hd.noGap, andThen_ok, bind_apply, h]
  rfl

/-- A plain definition is not a signature. -/
theorem functionSignature_err {st : Prop} {j : Nat} {d : FunctionDefinition} {c : Str} (h : SrcAt st ind j (.defn d) c) :
    functionSignature ind (c ++ r) = .err := by
  unfold functionSignature
  cases h with
  | @defn _ _ i n as e m cs w g d hn ha hw hg hd =>
    simp only [List.append_assoc, List.cons_append, List.nil_append]
    rw [bind_apply, functionNameOrOp_ok hn (fargs_termStop ha (termStop_spaces hw)).ident, andThen_ok, bind_apply]
    cases ha with
    | fargs0 =>
      rw [List.nil_append, spaces_ok hw (next_cons.2 (by decide)), andThen_ok, bind_apply,
        char_cons_ne _ (by decide)]
      rfl
    | @fargs _ _ a as' w' c' cs' hw' hc hcs =>
      obtain ⟨x, u, rfl, hx⟩ := term_head hc _ (.inl rfl)
      simp only [List.append_assoc, List.cons_append]
      rw [spaces_ok hw' (next_cons.2 ?_), andThen_ok, bind_apply, char_cons_ne]
      · rfl
      · rintro rfl; revert hx; decide
      · rintro rfl; revert hx; decide

theorem fn_ok {st : Prop} {j : Nat} {d : FunctionDefinition} {c : Str} (h : SrcAt st ind j (.defn d) c)
    (h' : functionDefinitionF expression ind (c ++ r) = .ok d r) :
    functionF expression ind (c ++ r) = .ok (.mk none d) r := by
  unfold functionF
  have : opt (terminated (functionSignature ind) (newLineAndSameIndent ind)) (c ++ r) = .ok none (c ++ r) := by
    refine opt_none ?_
    rw [terminated_apply, functionSignature_err h]
    rfl
  rw [bind_apply, this, andThen_ok, bind_apply, h']
  rfl

theorem fnName_head {n m : Str} (h : FnName n m) : ∃ x t, m = x :: t ∧ (x = '(' ∨ Lower x ∨ x = '_') := by
  cases h with
  | lo h =>
    obtain ⟨x, t, e, hx⟩ := loName_head h
    exact ⟨x, t, e, .inr hx.symm⟩
  | op h => exact ⟨'(', _, rfl, .inl rfl⟩

theorem defn_head {st : Prop} {j : Nat} {d : FunctionDefinition} {c : Str} (h : SrcAt st ind j (.defn d) c) :
    ∃ x t, c = x :: t ∧ x ≠ '-' := by
  cases h with
  | defn hn =>
    obtain ⟨x, t, rfl, hx⟩ := fnName_head hn
    refine ⟨x, _, rfl, ?_⟩
    rintro rfl
    revert hx; decide

theorem fnSig_ok {st : Prop} {j : Nat} {n m w g c1 c : Str} {t : Ty} {d : FunctionDefinition} {i k : Nat} (hn : FnName n m)
    (hw : SpacesTxt w) (hg : GapTxt ind .GT i g) (ht : TySrc i (.ann t) c1) (hk : k % 4294967296 = ind)
    (hdef : SrcAt st ind j (.defn d) c) (h : functionDefinitionF expression ind (c ++ r) = .ok d r) :
    functionF expression ind (m ++ (w ++ ':' :: (g ++ (c1 ++ '\n' :: (sp k ++ (c ++ r)))))) =
      .ok (.mk (some ⟨n, t⟩) d) r := by
  unfold functionF
  have hd : Starts c := src_starts hdef trivial
  have hstop : TyStop i ('\n' :: (sp k ++ (c ++ r))) := by
    refine ⟨next_cons.2 (by decide), .inr ?_⟩
    refine ⟨[⟨0, none⟩], ⟨k, none⟩, c ++ r, ⟨?_, by simp [gapText], ?_, by simp [Line.ok], .inl ⟨rfl, hd.noGap⟩⟩, ?_, ?_⟩
    · simp [gapText, Line.text, commentText, sp]
    · simp [Line.ok]
    · rintro u e
      obtain ⟨x, v, rfl, hx⟩ := defn_head hdef
      simp only [List.cons_append, List.cons.injEq] at e
      exact hx e.1
    · right
      refine ⟨by simp, ?_⟩
      have := hg.le (by decide)
      simp only [column, if_true]
      omega
  have e1 : functionSignature ind (m ++ (w ++ ':' :: (g ++ (c1 ++ '\n' :: (sp k ++ (c ++ r)))))) =
      .ok ⟨n, t⟩ ('\n' :: (sp k ++ (c ++ r))) := by
    unfold functionSignature
    have hty : NoGap (c1 ++ '\n' :: (sp k ++ (c ++ r))) := ty_head_noGap ht trivial
    rw [bind_apply, functionNameOrOp_ok hn (termStop_spaces hw).ident, andThen_ok, bind_apply,
      spaces_ok hw (next_cons.2 (by decide)), andThen_ok, bind_apply, char_cons, andThen_ok, bind_apply,
      hg.gap hty, andThen_ok, bind_apply, typeAnnotation_complete ht hstop]
    rfl
  have e2 : newLineAndSameIndent ind ('\n' :: (sp k ++ (c ++ r))) = .ok ind (c ++ r) :=
    newLineAndSameIndent_iff.2 ⟨rfl, k, rfl, hk, hd.notSpace⟩
  rw [bind_apply, opt_apply, terminated_apply, e1, andThen_ok, e2, andThen_ok]
  simp only [andThen_ok, orElse_ok, bind_apply, h]
  rfl

/-! ### Let -/

theorem letBindingTarget_var {ns : List Name} {c : Str} (h : VarText ns c) (hr : TermStop r) :
    letBindingTarget expression ind (c ++ r) = .ok (.Variable ns) r := by
  unfold letBindingTarget
  rw [alt_apply, variableP_ok h hr.ident (termStop_upper hr), orElse_ok]

theorem letBindingTarget_bracket {t : Str} :
    letBindingTarget expression ind ('[' :: t) = list expression ind ('[' :: t) := by
  unfold letBindingTarget
  simp only [alt_apply, variableP_err (c := '[') (t := t) (by decide) (by decide) (by decide),
    tuple_err (c := '[') (t := t) (by decide), simplifiedRecord_err (c := '[') (t := t) (by decide), orElse_err,
    orElse_err_right]

theorem letBindingTarget_brace {t : Str} :
    letBindingTarget expression ind ('{' :: t) = simplifiedRecord ('{' :: t) := by
  unfold letBindingTarget
  simp only [alt_apply, variableP_err (c := '{') (t := t) (by decide) (by decide) (by decide),
    tuple_err (c := '{') (t := t) (by decide), list_err (c := '{') (t := t) (by decide), orElse_err]

theorem letBindingTarget_paren {t : Str} (h : op ('(' :: t) = .err) :
    letBindingTarget expression ind ('(' :: t) = tuple expression ind ('(' :: t) := by
  unfold letBindingTarget
  simp only [alt_apply, variableP_paren, h, list_err (c := '(') (t := t) (by decide),
    simplifiedRecord_err (c := '(') (t := t) (by decide), orElse_err, orElse_err_right]

theorem binding_ok {s g1 g2 d : Str} {t e : Expr} {i1 i : Nat} (h1 : GapTxt ind .GTE i1 g1)
    (h2 : GapTxt ind .GTE i g2) (hd : Starts d)
    (k1 : letBindingTarget expression ind s = .ok t (g1 ++ '=' :: (g2 ++ (d ++ r))))
    (k2 : expression i (d ++ r) = .ok e r) :
    letEntry expression ind s = .ok (.LetBinding t e) r := by
  unfold letEntry
  have : letBinding expression ind s = .ok (.LetBinding t e) r := by
    unfold letBinding
    rw [bind_apply, k1, andThen_ok, bind_apply, h1.gap (noGap_of_ne (by decide)), andThen_ok, bind_apply, char_cons,
      andThen_ok, bind_apply, h2.gap hd.noGap, andThen_ok, bind_apply, k2]
    rfl
  rw [alt_apply, this, orElse_ok]

/-- After a function name come spaces and something other than an equals sign. -/
theorem letBinding_err_name {n m w t : Str} {x : Char} (hn : FnName n m) (hw : SpacesTxt w) (hx : x ≠ '=')
    (hng : NoGap (x :: t)) : letBinding expression ind (m ++ (w ++ x :: t)) = .err := by
  unfold letBinding letBindingTarget
  have e := variableP_of_functionName (functionNameOrOp_ok (r := w ++ x :: t) hn (termStop_spaces hw).ident)
  rw [bind_apply, alt_apply, e, orElse_ok, andThen_ok, bind_apply, (gapTxt_spaces ind .GTE hw).gap hng, andThen_ok,
    bind_apply, char_cons_ne _ hx]
  rfl

theorem letBinding_err_fn {st : Prop} {j : Nat} {sg : Option FunctionSignature} {n : Name} {as : List Expr} {e : Expr} {c : Str}
    (h : SrcAt st ind j (.fn (.mk sg (.mk n as e))) c) (h' : sg ≠ none ∨ as ≠ []) :
    letBinding expression ind (c ++ r) = .err := by
  cases h with
  | fn h =>
    cases h with
    | @defn _ _ i n as e m cs w g d hn ha hw hg hd =>
      cases ha with
      | fargs0 => simp at h'
      | @fargs _ _ a as' w' c' cs' hw' hc hcs =>
        have hng := (src_starts hc trivial).noGap (r := cs' ++ (w ++ '=' :: (g ++ (d ++ r))))
        obtain ⟨x, u, rfl, hx⟩ := term_head hc _ (.inl rfl)
        simp only [List.append_assoc, List.cons_append, List.nil_append] at hng ⊢
        refine letBinding_err_name hn hw' ?_ hng
        rintro rfl
        revert hx; decide
  | fnSig hn hw =>
    simp only [List.append_assoc, List.cons_append, List.nil_append]
    exact letBinding_err_name hn hw (by decide) (noGap_of_ne (by decide))

theorem letEntry_fn {s : Str} {f : Function} (h : letBinding expression ind s = .err)
    (h' : functionF expression ind s = .ok f r) : letEntry expression ind s = .ok (.LetFunction f) r := by
  unfold letEntry
  rw [alt_apply, h, orElse_err, pmap_apply, h']
  rfl

theorem letEntry_in {t : Str} (ht : Next (fun c => ¬ IdentChar c) t) :
    letEntry expression ind (c!"in" ++ t) = .err := by
  have hn : functionNameOrOp (c!"in" ++ t) = .err := by
    unfold functionNameOrOp
    have e := loName_keyword (k := c!"in") (by decide) ht
    simp only [List.cons_append, List.nil_append] at e ⊢
    rw [alt_apply, e, orElse_err, delimited_apply, char_cons_ne _ (by decide)]
    rfl
  have h1 : letBinding expression ind (c!"in" ++ t) = .err := by
    unfold letBinding letBindingTarget
    have e := variableP_keyword (k := c!"in") (by decide) ht
    simp only [List.cons_append, List.nil_append] at e ⊢
    simp only [bind_apply, alt_apply, e, list_err (c := 'i') (t := 'n' :: t) (by decide),
      tuple_err (c := 'i') (t := 'n' :: t) (by decide), simplifiedRecord_err (c := 'i') (t := 'n' :: t) (by decide),
      orElse_err, andThen_err]
  have h2 : functionF expression ind (c!"in" ++ t) = .err := by
    unfold functionF functionDefinitionF functionSignature
    simp only [bind_apply, opt_apply, terminated_apply, hn, andThen_err, orElse_err, andThen_ok]
  unfold letEntry
  rw [alt_apply, h1, orElse_err, pmap_apply, h2]
  rfl

theorem let_ok {g1 g2 g3 s t d : Str} {l : LetEntry} {ls : List LetEntry} {e : Expr} {i i2 i3 : Nat}
    (h1 : GapTxt ind .GTE i g1) (h2 : GapTxt ind .GTE i2 g2) (h3 : GapTxt ind .GTE i3 g3) (hs : NoGap s)
    (hd : Starts d) (k1 : letEntry expression i s = .ok l t)
    (k2 : Run (preceded (gap i .EQ) (letEntry expression i)) t ls (g2 ++ (c!"in" ++ (g3 ++ (d ++ r)))))
    (k3 : expression ind (d ++ r) = .ok e r) :
    expression ind (c!"let" ++ (g1 ++ s)) = .ok (.Let (l :: ls) e) r := by
  rw [expression_let (identEnd_gap h1)]
  unfold letExpression letBindings
  have e1 : sepNonemptyList (gap i .EQ) (letEntry expression i) s
      = .ok (l :: ls) (g2 ++ (c!"in" ++ (g3 ++ (d ++ r)))) := by
    refine (sepNonemptyList_iff (fun k => cons_gap k i .EQ) (fun k => cons_letEntryE k i)).2
      ⟨l, ls, t, rfl, k1, k2, ?_⟩
    rw [preceded_apply]
    rcases err_or_ok (fun k => cons_gap k i .EQ) (g2 ++ (c!"in" ++ (g3 ++ (d ++ r)))) with e | ⟨j, u, e, -⟩
    · rw [e]; rfl
    · obtain ⟨ls', n, hgap, -⟩ := h2.isGap (noGap_keyword (k := c!"in") (t := g3 ++ (d ++ r)) (by decide))
      obtain ⟨rfl, -⟩ := (gap_of_gap hgap i .EQ).1 e
      rw [e, andThen_ok, letEntry_in (identEnd_gap h3)]
  rw [bind_apply, tag_append, andThen_ok, bind_apply, h1.gap hs, andThen_ok, bind_apply, e1, andThen_ok, bind_apply,
    h2.gap (noGap_keyword (by decide)), andThen_ok, bind_apply, tag_append, andThen_ok, bind_apply, h3.gap hd.noGap,
    andThen_ok, bind_apply, k3]
  rfl

/-! ### Case -/

theorem stop_arrow {ind' i : Nat} {ir : IR} {g t : Str} (hg : GapTxt ind' ir i g) (ht : Next (fun c => ¬ OpChar c) t) :
    StopAt 0 (g ++ (c!"->" ++ t)) :=
  stop_gap_closer hg noGap_arrow (.inr (.inl ⟨t, rfl, ht⟩))

theorem gap_notOp {i : Nat} {ir : IR} {g t : Str} (hg : GapTxt ind ir i g) (h : ∀ u, g ≠ '-' :: u) :
    Next (fun c => ¬ OpChar c) (g ++ t) := by
  obtain ⟨c, u, rfl, hc⟩ := hg.cons
  refine next_cons.2 ?_
  rcases hc with rfl | rfl | ⟨rfl, -⟩
  · decide
  · decide
  · exact absurd rfl (h _)

theorem branch_ok {c g1 g2 d : Str} {p e : Expr} {i1 i : Nat} (h1 : GapTxt ind .GTE i1 g1)
    (h2 : GapTxt ind .GTE i g2) (hg : ∀ t, g2 ≠ '-' :: t) (hd : Starts d)
    (k1 : ∀ r, StopAt 0 r → expression ind (c ++ r) = .ok p r) (k2 : expression i (d ++ r) = .ok e r) :
    caseBranch expression ind (c ++ (g1 ++ (c!"->" ++ (g2 ++ (d ++ r))))) = .ok (p, e) r := by
  unfold caseBranch
  rw [bind_apply, k1 _ (stop_arrow h1 (gap_notOp h2 hg)), andThen_ok, bind_apply, h1.gap noGap_arrow, andThen_ok,
    bind_apply, tag_append, andThen_ok, bind_apply, h2.gap hd.noGap, andThen_ok, bind_apply, k2]
  rfl

/-- The branches of a case end where the expression ends. -/
theorem branches_end {i j : Nat} (h : StopAt j r) (hi : j ≤ i) :
    preceded (gap i .EQ) (caseBranch expression i) r = .err := by
  rw [preceded_apply]
  rcases h.2 with h | ⟨ls, last, r', hg, h⟩
  · rw [gap_none h]; rfl
  · rcases err_or_ok (fun k => cons_gap k i .EQ) r with e | ⟨k, t, e, -⟩
    · rw [e]; rfl
    · obtain ⟨rfl, h'⟩ := (gap_of_gap hg i .EQ).1 e
      rw [e, andThen_ok]
      rcases h with h | ⟨h1, h2⟩
      · unfold caseBranch
        rw [bind_apply, closer_expression h]
        rfl
      · exfalso
        rcases h' with ⟨h3, -⟩ | ⟨-, -, h3⟩
        · exact h1 h3
        · simp only [Rel] at h3
          rcases h2 with h2 | ⟨h2, -⟩ <;> omega

theorem case_ok {g1 g2 g3 c s t : Str} {e : Expr} {b : Expr × Expr} {bs : List (Expr × Expr)} {i1 i2 i j : Nat}
    (h1 : GapTxt ind .GTE i1 g1) (h2 : GapTxt ind .GTE i2 g2) (h3 : GapTxt ind .GTE i g3) (hi : j ≤ i)
    (hc : Starts c) (hs : NoGap s) (k1 : ∀ r, StopAt 0 r → expression ind (c ++ r) = .ok e r)
    (k2 : caseBranch expression i s = .ok b t)
    (k3 : Run (preceded (gap i .EQ) (caseBranch expression i)) t bs r) (hr : StopAt j r) :
    expression ind (c!"case" ++ (g1 ++ (c ++ (g2 ++ (c!"of" ++ (g3 ++ s)))))) = .ok (.Case e (b :: bs)) r := by
  rw [expression_case (identEnd_gap h1)]
  unfold caseExpression casesP
  have e1 : sepNonemptyList (gap i .EQ) (caseBranch expression i) s = .ok (b :: bs) r :=
    (sepNonemptyList_iff (fun k => cons_gap k i .EQ) (fun k => cons_caseBranchE k i)).2
      ⟨b, bs, t, rfl, k2, k3, branches_end hr hi⟩
  rw [bind_apply, tag_append, andThen_ok, bind_apply, h1.gap hc.noGap, andThen_ok, bind_apply,
    k1 _ (stop_keyword h2 (by decide) (identEnd_gap h3)), andThen_ok, bind_apply,
    h2.gap (noGap_keyword (by decide)), andThen_ok, bind_apply, tag_append, andThen_ok, bind_apply, h3.gap hs,
    andThen_ok, bind_apply, e1]
  rfl

/-- Something on a new line at the current indentation that is not an operator ends an expression. -/
theorem stop_eq {i : Nat} {g t : Str} (hg : GapTxt ind .EQ i g) (hnl : '\n' ∈ g) (hn : NoGap t) (ho : ¬ OpStart t) :
    StopAt (ind + 1) (g ++ t) := by
  refine ⟨termStop_gap hg, .inr ?_⟩
  have hl : ∀ ls n, g = gapText ls ⟨n, none⟩ → ls ≠ [] := by
    rintro ls n rfl rfl
    simp only [gapText, Line.text, commentText, List.append_nil] at hnl
    exact absurd (mem_sp hnl) (by decide)
  obtain ⟨ls, n, rfl, h1, h2, h3⟩ := hg
  have hne := hl ls n rfl
  refine ⟨ls, ⟨n, none⟩, t, ⟨rfl, h1, h2, by simp [Line.ok], .inl ⟨rfl, hn⟩⟩, .inr ⟨hne, .inr ⟨?_, ho⟩⟩⟩
  rcases h3 with ⟨h3, -⟩ | ⟨-, h4, h5⟩
  · exact absurd h3 hne
  · simp only [Rel] at h5
    simp only [column, if_true]
    omega
end

/-! ### The theorem -/

/-- What completeness says for each category. -/
def EOk (ind j : Nat) (c : Str) : Cat → Prop
  | .closed e => ∀ r, termF expression ind (c ++ r) = .ok e r
  | .term e => ∀ r, TermStop r → termF expression ind (c ++ r) = .ok e r
  | .args es => ∀ r, ArgStop ind r → Run (preceded (gap ind .GT) (termF expression ind)) (c ++ r) es r
  | .app e => ∀ r, ArgStop ind r → applicationOrVar expression ind (c ++ r) = .ok e r
  | .expr e => j ≤ ind + 1 → ∀ r, StopAt j r → expression ind (c ++ r) = .ok e r
  | .items es => ∀ r, StopAt 0 r → StopAt 0 (c ++ r) ∧
      Run (preceded (commaSep ind) (expression ind)) (c ++ r) es r
  | .comps es => ∀ r,
      Run (preceded (char ',') (delimited multispace0 (expression ind) multispace0)) (c ++ ')' :: r) es (')' :: r)
  | .field f => ∀ r, StopAt 0 r → recordField expression ind (c ++ r) = .ok f r
  | .fields fs => ∀ r, StopAt 0 r → StopAt 0 (c ++ r) ∧
      Run (preceded (commaSep ind) (recordField expression ind)) (c ++ r) fs r
  | .upd f => ∀ r, StopAt 0 r → updateField expression ind (c ++ r) = .ok f r
  | .upds fs => ∀ r, StopAt 0 r → StopAt 0 (c ++ r) ∧
      Run (preceded (delimited (optGap ind .GTE) (char ',') (optGap ind .GTE)) (updateField expression ind)) (c ++ r) fs r
  | .largs es => ∀ r, TermStop r → Run (preceded space1 (termF expression ind)) (c ++ r) es r
  | .target e => ∀ r, TermStop r → letBindingTarget expression ind (c ++ r) = .ok e r
  | .entry l => j ≤ ind + 1 → ∀ r, StopAt j r → letEntry expression ind (c ++ r) = .ok l r
  | .entries ls => j ≤ ind + 1 → ∀ r, StopAt j r → StopAt (after ls j (ind + 1)) (c ++ r) ∧
      Run (preceded (gap ind .EQ) (letEntry expression ind)) (c ++ r) ls r
  | .fargs es => ∀ r, TermStop r → Run (preceded spaces (termF expression ind)) (c ++ r) es r
  | .defn d => j ≤ ind + 1 → ∀ r, StopAt j r → functionDefinitionF expression ind (c ++ r) = .ok d r
  | .fn f => j ≤ ind + 1 → ∀ r, StopAt j r → functionF expression ind (c ++ r) = .ok f r
  | .branch b => j ≤ ind + 1 → ∀ r, StopAt j r → caseBranch expression ind (c ++ r) = .ok b r
  | .branches bs => j ≤ ind + 1 → ∀ r, StopAt j r → StopAt (after bs j (ind + 1)) (c ++ r) ∧
      Run (preceded (gap ind .EQ) (caseBranch expression ind)) (c ++ r) bs r

theorem largs_termStop {st : Prop} {ind j : Nat} {es : List Expr} {c r : Str} (h : SrcAt st ind j (.largs es) c)
    (hr : TermStop r) : TermStop (c ++ r) := by
  cases h with
  | largs0 => exact hr
  | @largs _ _ e es w c cs h =>
    simp only [List.append_assoc]
    obtain ⟨hne, h⟩ := h
    cases w with
    | nil => exact absurd rfl hne
    | cons x w =>
      refine next_cons.2 ?_
      rcases h x (by simp) with rfl | rfl <;> decide

theorem comps_head {st : Prop} {ind j : Nat} {es : List Expr} {c : Str} (h : SrcAt st ind j (.comps es) c) (r : Str) :
    ∃ x t, c ++ ')' :: r = x :: t ∧ x ∈ closing ∧ (es ≠ [] → x = ',') := by
  cases h with
  | comps0 => exact ⟨_, _, rfl, by decide, fun h => absurd rfl h⟩
  | comps => exact ⟨_, _, rfl, by decide, fun _ => rfl⟩

theorem comps_stop {st : Prop} {ind j : Nat} {es : List Expr} {c w : Str} (h : SrcAt st ind j (.comps es) c)
    (hw : Whites w) (r : Str) : StopAt 0 (w ++ (c ++ ')' :: r)) := by
  obtain ⟨x, t, e, hx, -⟩ := comps_head h r
  rw [e]
  exact stop_whites hw hx

theorem comps_white {st : Prop} {ind j : Nat} {es : List Expr} {c : Str} (h : SrcAt st ind j (.comps es) c)
    (r : Str) : Next (fun c => ¬ White c) (c ++ ')' :: r) := by
  obtain ⟨x, t, e, hx, -⟩ := comps_head h r
  rw [e]
  exact next_cons.2 (closing_facts hx).2.2.2.2

theorem src_complete {ind j : Nat} {k : Cat} {c : Str} (h : SrcAt True ind j k c) : EOk ind j c k := by
  have N := @List.append_assoc Char
  induction h with
  | var h => exact fun r hr => var_term h hr
  | access h h' =>
    intro r hr
    rw [N]
    exact access_term h (by simp) h' hr
  | accessFn h => exact fun r hr => accessFn_term h hr.ident
  | str0 => exact fun r hr => single_term .nil (.inr (Next.imp hr fun _ h => h.2.2))
  | int h =>
    intro r hr
    refine int_term h (Next.imp hr fun _ h => (ident_digit h.1).1) ?_
    rintro c t rfl
    exact absurd rfl (next_cons.1 hr).2.1
  | float h => exact fun r hr => float_term h (Next.imp hr fun _ h => (ident_digit h.1).1)
  | closed _ ih => exact fun r _ => ih r
  | str1 h hne =>
    intro r
    simp only [List.append_assoc, List.cons_append, List.nil_append]
    exact single_term h (.inl hne)
  | str3 h =>
    intro r
    simp only [List.append_assoc, List.cons_append, List.nil_append]
    exact multi_term h
  | char h =>
    intro r
    simp only [List.append_assoc, List.cons_append, List.nil_append]
    exact char_term h
  | parens h ih =>
    intro r
    simp only [List.append_assoc, List.cons_append, List.nil_append]
    exact parens_term (src_starts h trivial) (ih (Nat.zero_le _) _ (stop_optGap (ind' := 0) (ir := .GTE) (g := []) (.inl rfl) (by decide)))
  | list0 h =>
    intro r
    simp only [List.append_assoc, List.cons_append, List.nil_append]
    rw [termF_bracket, list0_ok h]
  | list h1 hc _ h2 ihc ihs =>
    intro r
    simp only [List.append_assoc, List.cons_append, List.nil_append]
    obtain ⟨k1, k2⟩ := ihs _ (stop_optGap (r := r) (x := ']') h2 (by decide))
    rw [termF_bracket, list_ok h1 h2 (src_starts hc trivial) (ihc (Nat.zero_le _) _ k1) k2]
  | tuple0 => exact fun r => tuple0_term
  | @tuple1 ind j e w1 w2 c h1 h2 hne hc ih =>
    intro r
    simp only [List.append_assoc, List.cons_append, List.nil_append]
    exact tuple_term h1 h2 (src_starts hc trivial) (ih (Nat.zero_le _) _ (stop_whites h2 (by decide)))
      (next_cons.2 (by decide)) (.nil _) (.inl hne)
  | @tuple ind j e es w1 w2 c cs h1 h2 hc hcs hne ihc ihs =>
    intro r
    simp only [List.append_assoc, List.cons_append, List.nil_append]
    refine tuple_term h1 h2 (src_starts hc trivial) (ihc (Nat.zero_le _) _ (comps_stop hcs h2 r)) (comps_white hcs r) (ihs r) (.inr ?_)
    obtain ⟨x, t, e, -, hx⟩ := comps_head hcs r
    rw [e, hx hne]
    exact next_cons.2 (by decide)
  | record0 h =>
    intro r
    simp only [List.append_assoc, List.cons_append, List.nil_append]
    exact record0_term h
  | @record ind j f fs g1 g2 c cs h1 hc hcs h2 ihc ihs =>
    intro r
    obtain ⟨k1, k2⟩ := ihs _ (stop_optGap (r := r) (x := '}') h2 (by decide))
    have k3 := ihc _ k1
    cases hc with
    | field hn h3 h4 hd =>
      simp only [List.append_assoc, List.cons_append, List.nil_append] at k3 ⊢
      exact record_term h1 hn h3 k3 k2 h2
  | simp h =>
    intro r
    simp only [List.append_assoc, List.cons_append, List.nil_append]
    exact simp_term h
  | @update ind j n f fs g1 g2 w g3 i c cs h1 hn h2 hw hc hcs h3 ihc ihs =>
    intro r
    obtain ⟨k1, k2⟩ := ihs _ (stop_optGap (r := r) (x := '}') (.inr ⟨_, h3⟩) (by decide))
    simp only [List.append_assoc, List.cons_append, List.nil_append]
    refine update_term (u := g3 ++ '}' :: r) h1 hn h2 hw (src_starts hc trivial).notWhite ?_
      (h3.gap (noGap_of_ne (by decide)))
    exact (sepList_iff cons_updateSep cons_updateField).2 (.inr ⟨f, fs, _, rfl, ihc _ k1, k2, by
      rw [preceded_apply, updateSep_err (.inr ⟨_, h3⟩) (by decide) (by decide)]; rfl⟩)
  | @update0 ind j n g1 g2 w g3 i h1 hn h2 hw h3 =>
    intro r
    have e := h3.gap (r := '}' :: r) (noGap_of_ne (by decide))
    simp only [List.append_assoc, List.cons_append, List.nil_append] at e ⊢
    refine update_term h1 hn h2 hw (next_cons.2 (by decide)) ?_ e
    exact (sepList_iff cons_updateSep cons_updateField).2 (.inl ⟨rfl, rfl,
      updateField_err (loName_err_head (by decide) (by decide))⟩)
  | items0 => exact fun r hr => ⟨hr, .nil _⟩
  | @items ind j e es g1 g2 c cs h1 h2 hc _ ihc ihs =>
    intro r hr
    obtain ⟨k1, k2⟩ := ihs r hr
    have e := commaSep_ok h1 h2 (r := c ++ (cs ++ r)) (src_starts hc trivial).noGap
    simp only [List.append_assoc, List.cons_append, List.nil_append] at e ⊢
    refine ⟨stop_optGap h1 (by decide), run_cons (cons_preceded' (fun k => cons_commaSep k _) (fun k => cons_expression k _)) ?_ k2⟩
    rw [preceded_apply, e, andThen_ok, ihc (Nat.zero_le _) _ k1]
  | comps0 => exact fun r => .nil _
  | comps h1 h2 hc hcs ihc ihs =>
    intro r
    simp only [List.append_assoc, List.cons_append, List.nil_append]
    refine run_cons (cons_preceded' (fun k => cons_char k _) cons_component) ?_ (ihs r)
    rw [preceded_apply, char_cons, andThen_ok]
    exact component_ok h1 h2 (src_starts hc trivial) (ihc (Nat.zero_le _) _ (comps_stop hcs h2 r)) (comps_white hcs r)
  | field hn h1 h2 hc ih =>
    intro r hr
    simp only [List.append_assoc, List.cons_append, List.nil_append]
    exact recordField_ok hn h1 h2 (src_starts hc trivial) (ih (Nat.zero_le _) r hr)
  | fields0 => exact fun r hr => ⟨hr, .nil _⟩
  | @fields ind j e es g1 g2 c cs h1 h2 hc _ ihc ihs =>
    intro r hr
    obtain ⟨k1, k2⟩ := ihs r hr
    have e := commaSep_ok h1 h2 (r := c ++ (cs ++ r)) (src_starts hc trivial).noGap
    simp only [List.append_assoc, List.cons_append, List.nil_append] at e ⊢
    refine ⟨stop_optGap h1 (by decide), run_cons (cons_preceded' (fun k => cons_commaSep k _) cons_recordField) ?_ k2⟩
    rw [preceded_apply, e, andThen_ok, ihc _ k1]
  | upd hn h1 h2 hc ih =>
    intro r hr
    simp only [List.append_assoc, List.cons_append, List.nil_append]
    exact updateField_ok hn h1 h2 (src_starts hc trivial) (ih (Nat.zero_le _) r hr)
  | upds0 => exact fun r hr => ⟨hr, .nil _⟩
  | @upds ind j e es g1 g2 c cs h1 h2 hc _ ihc ihs =>
    intro r hr
    obtain ⟨k1, k2⟩ := ihs r hr
    have e := updateSep_ok h1 h2 (r := c ++ (cs ++ r)) (src_starts hc trivial).noGap
    simp only [List.append_assoc, List.cons_append, List.nil_append] at e ⊢
    refine ⟨stop_optGap h1 (by decide), run_cons (cons_preceded' cons_updateSep cons_updateField) ?_ k2⟩
    rw [preceded_apply, e, andThen_ok, ihc _ k1]
  | args0 => exact fun r _ => .nil _
  | args hg hc hcs ihc ihs =>
    intro r hr
    simp only [List.append_assoc]
    refine run_cons (cons_preceded' (fun k => cons_gap k _ _) (fun k => cons_termE k _)) ?_ (ihs r hr)
    rw [preceded_apply, hg.gap (src_starts hc trivial).noGap, andThen_ok, ihc _ (args_termStop hcs hr.tok)]
  | app hc hcs ihc ihs =>
    intro r hr
    rw [N]
    exact applicationOrVar_ok (ihc _ (args_termStop hcs hr.tok)) (ihs r hr) hr
  | eApp _ ih => exact fun hj r hr => eApp_ok (ih r (hr.stop hj).argStop) (hr.stop hj)
  | binop _ hg ho hw hne hd iha ihb =>
    intro hj r hr
    simp only [List.append_assoc]
    exact binop_ok hg ho hw hne (src_starts hd trivial) (iha _ (argStop_op hg ho hw hne)) (ihb hj r hr)
  | let_ h1 hc hcs h2 h3 hd ihc ihs ihd =>
    intro hj r hr
    obtain ⟨k1, k2⟩ := ihs (Nat.zero_le _) _ (stop_keyword (k := c!"in") h2 (by decide) (identEnd_gap h3))
    simp only [List.append_assoc]
    exact let_ok h1 h2 h3 (src_starts hc trivial).noGap (src_starts hd trivial) (ihc (after_bound (Nat.zero_le _)) _ k1) k2 (ihd hj r hr)
  | case_ h1 hc h2 h3 hi hd hds ihc ihd ihs =>
    intro hj r hr
    have hi := hi trivial
    obtain ⟨k1, k2⟩ := ihs (by omega) r hr
    simp only [List.append_assoc]
    exact case_ok h1 h2 h3 hi (src_starts hc trivial) (src_starts hd trivial).noGap (ihc (Nat.zero_le _)) (ihd (after_bound (by omega)) _ k1) k2 hr
  | if_ h1 hc1 h2 h3 hc2 h4 h5 hc3 ih1 ih2 ih3 =>
    intro hj r hr
    simp only [List.append_assoc]
    exact if_ok h1 h2 h3 h4 h5 (src_starts hc1 trivial) (src_starts hc2 trivial) (src_starts hc3 trivial) (ih1 (Nat.zero_le _)) (ih2 (Nat.zero_le _))
      (ih3 (Nat.le_trans hj (Nat.succ_le_succ (h5.le (by decide)))) r hr)
  | lambda hc hcs h1 h2 hd ihc ihs ihd =>
    intro hj r hr
    simp only [List.append_assoc, List.cons_append, List.nil_append]
    exact lambda_ok h1 h2 (src_starts hd trivial) (ihc _ (largs_termStop hcs (termStop_gap h1)))
      (ihs _ (termStop_gap h1)) (ihd (Nat.le_trans hj (Nat.succ_le_succ (h2.le (by decide)))) r hr)
  | largs0 => exact fun r _ => .nil _
  | @largs ind j e es w c cs hw hc hcs ihc ihs =>
    intro r hr
    simp only [List.append_assoc]
    refine run_cons (cons_preceded' cons_space1 (fun k => cons_termE k _)) ?_ (ihs r hr)
    have e := space1_iff.2 ⟨rfl, hw, Next.imp ((src_starts hc trivial).notWhite (r := cs ++ r))
      fun c h => ⟨fun e => h (.inl e), fun e => h (.inr (.inl e))⟩⟩
    rw [preceded_apply, e, andThen_ok, ihc _ (largs_termStop hcs hr)]
  | tVar h => exact fun r hr => letBindingTarget_var h hr
  | tList0 h =>
    intro r _
    simp only [List.append_assoc, List.cons_append, List.nil_append]
    rw [letBindingTarget_bracket, list0_ok h]
  | tList h1 hc _ h2 ihc ihs =>
    intro r _
    simp only [List.append_assoc, List.cons_append, List.nil_append]
    obtain ⟨k1, k2⟩ := ihs _ (stop_optGap (r := r) (x := ']') h2 (by decide))
    rw [letBindingTarget_bracket, list_ok h1 h2 (src_starts hc trivial) (ihc (Nat.zero_le _) _ k1) k2]
  | tTuple0 =>
    intro r _
    exact (letBindingTarget_paren (op_err_white (.inr rfl))).trans tuple0_ok
  | tTuple h1 h2 hc hcs ihc ihs =>
    intro r _
    simp only [List.append_assoc, List.cons_append, List.nil_append]
    rw [letBindingTarget_paren (op_err_open h1 (src_starts hc trivial)),
      tuple_ok h1 h2 (src_starts hc trivial) (ihc (Nat.zero_le _) _ (comps_stop hcs h2 r)) (comps_white hcs r) (ihs r)]
  | tRecord h =>
    intro r _
    simp only [List.append_assoc, List.cons_append, List.nil_append]
    rw [letBindingTarget_brace, simplifiedRecord_ok h]
  | binding hc h1 h2 hd ihc ihd =>
    intro hj r hr
    simp only [List.append_assoc, List.cons_append, List.nil_append]
    exact binding_ok h1 h2 (src_starts hd trivial) (ihc _ (termStop_gap h1)) (ihd (Nat.le_trans hj (Nat.succ_le_succ (h2.le (by decide)))) r hr)
  | function h hf ih => exact fun hj r hr => letEntry_fn (letBinding_err_fn hf h) (ih hj r hr)
  | entries0 => exact fun hj r hr => ⟨hr, .nil _⟩
  | entries hg hnl hc _ ihc ihs =>
    intro hj r hr
    obtain ⟨k1, k2⟩ := ihs hj r hr
    have hst := src_starts hc trivial
    simp only [List.append_assoc]
    refine ⟨stop_eq hg (hnl trivial) hst.noGap (hst.notOp (src_notAs hc trivial _ k1.1)), ?_⟩
    refine run_cons (cons_preceded' (fun k => cons_gap k _ _) (fun k => cons_letEntryE k _)) ?_ k2
    rw [preceded_apply, hg.gap hst.noGap, andThen_ok, ihc (after_bound hj) _ k1]
  | fargs0 => exact fun r _ => .nil _
  | fargs hw hc hcs ihc ihs =>
    intro r hr
    simp only [List.append_assoc]
    refine run_cons (cons_preceded' cons_spaces (fun k => cons_termE k _)) ?_ (ihs r hr)
    rw [preceded_apply, spaces_ok hw (src_starts hc trivial).notSpace, andThen_ok, ihc _ (fargs_termStop hcs hr)]
  | defn hn ha hw hg hd iha ihd =>
    intro hj r hr
    simp only [List.append_assoc, List.cons_append, List.nil_append]
    exact defn_ok hn (fargs_termStop ha (termStop_spaces hw)).ident (iha _ (termStop_spaces hw)) hw hg
      (src_starts hd trivial) (ihd (Nat.le_trans hj (Nat.succ_le_succ (hg.le (by decide)))) r hr)
  | fn h ih => exact fun hj r hr => fn_ok h (ih hj r hr)
  | fnSig hn hw hg ht hk hd ih =>
    intro hj r hr
    simp only [List.append_assoc, List.cons_append, List.nil_append]
    exact fnSig_ok hn hw hg ht hk hd (ih hj r hr)
  | branch hc h1 h2 hg hd ihc ihd =>
    intro hj r hr
    simp only [List.append_assoc]
    exact branch_ok h1 h2 (hg trivial) (src_starts hd trivial) (ihc (Nat.zero_le _)) (ihd (Nat.le_trans hj (Nat.succ_le_succ (h2.le (by decide)))) r hr)
  | branches0 => exact fun hj r hr => ⟨hr, .nil _⟩
  | branches hg hnl hc _ ihc ihs =>
    intro hj r hr
    obtain ⟨k1, k2⟩ := ihs hj r hr
    have hst := src_starts hc trivial
    simp only [List.append_assoc]
    refine ⟨stop_eq hg (hnl trivial) hst.noGap (hst.notOp (src_notAs hc trivial _ k1.1)), ?_⟩
    refine run_cons (cons_preceded' (fun k => cons_gap k _ _) (fun k => cons_caseBranchE k _)) ?_ k2
    rw [preceded_apply, hg.gap hst.noGap, andThen_ok, ihc (after_bound hj) _ k1]

section
variable {ind : Nat} {c : Str}

/-- Every text of an expression, followed by something that ends it, is read as that expression. -/
theorem expression_complete {e : Expr} {r : Str} (h : Src True ind (.expr e) c) (hr : Stop ind r) :
    expression ind (c ++ r) = .ok e r :=
  src_complete h (Nat.le_refl _) r (Stop.at.2 hr)

theorem term_complete {e : Expr} {r : Str} (h : Src True ind (.term e) c) (hr : TermStop r) :
    term ind (c ++ r) = .ok e r :=
  src_complete h r hr

theorem closed_complete {e : Expr} {r : Str} (h : Src True ind (.closed e) c) : term ind (c ++ r) = .ok e r :=
  src_complete h r

theorem functionDefinition_complete {d : FunctionDefinition} {r : Str} (h : Src True ind (.defn d) c)
    (hr : Stop ind r) : functionDefinition ind (c ++ r) = .ok d r :=
  src_complete h (Nat.le_refl _) r (Stop.at.2 hr)

theorem function_complete {f : Function} {r : Str} (h : Src True ind (.fn f) c) (hr : Stop ind r) :
    function ind (c ++ r) = .ok f r :=
  src_complete h (Nat.le_refl _) r (Stop.at.2 hr)
end

end ElmParser
