import Verif.Props.Linear
import Verif.Props.TypeCost

/-! C61, continued: valid texts without parentheses that take exponential time. -/
namespace ElmParser
open Spec

/-- What follows the list in a layer. -/
abbrev layerEnd (r : Str) : Str := ' ' :: '=' :: ' ' :: 'x' :: ' ' :: 'i' :: 'n' :: ' ' :: 'x' :: r

/-- The part of a layer before the list. -/
abbrev layerCase (t : Str) : Str := c!"case x of x -> x\n[" ++ t

theorem gap_line_GT {t : Str} (h : NoGap t) : gap 0 .GT ('\n' :: t) = .err := by
  rcases (cons_gap (('\n' :: t).length + 1) 0 .GT).good _ (Nat.lt_succ_self _) with h' | ⟨v, r, h', -⟩
  · exact h'
  · obtain ⟨-, ⟨h, -⟩ | ⟨-, -, h⟩⟩ := (gap_of_gap (gap_newline_of_noGap h) 0 .GT).1 h'
    · cases h
    · exact absurd h (by decide)

theorem gap_line {t : Str} (h : NoGap t) : gap 0 .GTE ('\n' :: t) = .ok 0 t ∧ gap 0 .EQ ('\n' :: t) = .ok 0 t :=
  ⟨(gap_of_gap (gap_newline_of_noGap h) 0 .GTE).2 ⟨rfl, .inr ⟨by simp, by decide, by decide⟩⟩,
    (gap_of_gap (gap_newline_of_noGap h) 0 .EQ).2 ⟨rfl, .inr ⟨by simp, by decide, by decide⟩⟩⟩

theorem opt_gap_none {ind : Nat} {t : Str} (h : NoGap t) : opt (gap ind .GTE) t = .ok none t :=
  opt_eq_ok.2 (.inr ⟨gap_none h ind .GTE, rfl, rfl⟩)

theorem layer_list {t r : Str} {e : Expr} (ht : NoGap t) (h : expression 0 t = .ok e (']' :: layerEnd r)) :
    list expression 0 ('[' :: t) = .ok (.List [e]) (layerEnd r) := by
  have hg : NoGap (']' :: layerEnd r) := noGap_of_ne (by decide)
  have hl : (']' :: layerEnd r).length < t.length := by
    rcases cons_expression (t.length + 1) 0 t (Nat.lt_succ_self _) with h' | ⟨v, r', h', -, hl⟩
    · rw [h] at h'; cases h'
    · rw [h] at h'; cases h'; exact hl
  have e0 : preceded (char '[') (opt (gap 0 .GTE)) ('[' :: t) = .ok none t := by
    rw [preceded_apply, char_cons, andThen_ok, opt_gap_none ht]
  have e1 := opt_gap_none (ind := 0) hg
  have e2 : commaSep 0 (']' :: layerEnd r) = .err := by
    unfold commaSep
    rw [delimited_apply, e1]
    rfl
  have e3 : sepList (commaSep 0) (expression 0) t = .ok [e] (']' :: layerEnd r) := by
    unfold sepList
    rw [h]
    simp only
    rw [if_neg (by omega)]
    simp only [sepLoop, e2]
    rfl
  have e4 : terminated (opt (gap 0 .GTE)) (char ']') (']' :: layerEnd r) = .ok none (layerEnd r) := by
    rw [terminated_apply, e1]
    rfl
  unfold list
  rw [pmap_apply, delimited_apply, e0, andThen_ok, opt_eq_ok.2 (.inl ⟨_, e3, rfl⟩), andThen_ok, e4]
  rfl

theorem term_eqSign (t : Str) : termF expression 0 ('=' :: t) = .err := rfl

/-- An application or operator chain that stops at a space. -/
theorem expression_term_stop {ind : Nat} {w : Expr} {s t : Str} (hl : (' ' :: t).length < s.length)
    (hw : termF expression ind s = .ok w (' ' :: t)) (ht : NoGap t)
    (h1 : termF expression ind t = .err) (h2 : operatorOrAs t = .err) : expression ind s = .ok w (' ' :: t) := by
  have hloop : sepLoop (gap ind .GT) (termF expression ind) ((' ' :: t).length + 1) (' ' :: t) = .ok [] (' ' :: t) := by
    simp only [sepLoop, gap_blank ind .GT ht, h1]
    split <;> rfl
  have happ : applicationOrVar expression ind s = .ok w (' ' :: t) := by
    unfold applicationOrVar sepList
    rw [bind_apply, hw]
    simp only
    rw [if_neg (by omega), hloop]
    rfl
  have htail : opt (binaryTail expression ind) (' ' :: t) = .ok none (' ' :: t) := by
    refine opt_eq_ok.2 (.inr ⟨?_, rfl, rfl⟩)
    unfold binaryTail
    rw [bind_apply, gap_blank ind .GTE ht, andThen_ok, bind_apply, h2]
    rfl
  rw [expression_unfold]
  unfold expressionF binary
  rw [alt_apply, bind_apply, happ, andThen_ok, bind_apply, htail]
  rfl

/-- The list is an expression. -/
theorem layer_item {t r : Str} {e : Expr} (ht : NoGap t) (h : expression 0 t = .ok e (']' :: layerEnd r)) :
    expression 0 ('[' :: t) = .ok (.List [e]) (layerEnd r) := by
  have hl : (layerEnd r).length < ('[' :: t).length := by
    rcases cons_expression (t.length + 1) 0 t (Nat.lt_succ_self _) with h' | ⟨v, r', h', -, hl⟩
    · rw [h] at h'; cases h'
    · rw [h] at h'; cases h'; simp at hl ⊢; omega
  refine expression_term_stop hl ?_ (noGap_eqSign _) (term_eqSign _) rfl
  rw [termF_bracket]
  exact layer_list ht h

/-- The list is not a branch of a case. -/
theorem layer_branch {t r : Str} {e : Expr} (ht : NoGap t) (h : expression 0 t = .ok e (']' :: layerEnd r)) :
    caseBranch expression 0 ('[' :: t) = .err := by
  unfold caseBranch
  rw [bind_apply, layer_item ht h, andThen_ok, bind_apply, gap_blank 0 .GTE (noGap_eqSign _)]
  rfl

/-- A variable before a line at the first column. -/
theorem expression_x_line (t : Str) :
    expression 0 ('x' :: '\n' :: '[' :: t) = .ok (.Variable [c!"x"]) ('\n' :: '[' :: t) := by
  have hw : termF expression 0 ('x' :: '\n' :: '[' :: t) = .ok (.Variable [c!"x"]) ('\n' :: '[' :: t) := rfl
  have hloop : sepLoop (gap 0 .GT) (termF expression 0) (('\n' :: '[' :: t).length + 1) ('\n' :: '[' :: t) =
      .ok [] ('\n' :: '[' :: t) := by
    simp only [sepLoop, gap_line_GT (noGap_bracket t)]
  have happ : applicationOrVar expression 0 ('x' :: '\n' :: '[' :: t) = .ok (.Variable [c!"x"]) ('\n' :: '[' :: t) := by
    unfold applicationOrVar sepList
    rw [bind_apply, hw]
    simp only
    rw [if_neg (by simp), hloop]
    rfl
  have htail : opt (binaryTail expression 0) ('\n' :: '[' :: t) = .ok none ('\n' :: '[' :: t) := by
    refine opt_eq_ok.2 (.inr ⟨?_, rfl, rfl⟩)
    unfold binaryTail
    have ho : operatorOrAs ('[' :: t) = .err := operatorOrAs_err_head (by decide) (by decide)
    rw [bind_apply, (gap_line (noGap_bracket t)).1, andThen_ok, bind_apply, ho]
    rfl
  rw [expression_unfold]
  unfold expressionF binary
  rw [alt_apply, bind_apply, happ, andThen_ok, bind_apply, htail]
  rfl

theorem layer_first (t : Str) : caseBranch expression 0 (c!"x -> x\n[" ++ t) =
    .ok (.Variable [c!"x"], .Variable [c!"x"]) ('\n' :: '[' :: t) := by
  unfold caseBranch
  have e1 : expression 0 (c!"x -> x\n[" ++ t) = _ := expression_arrow 0 (c!"x\n[" ++ t)
  have e2 : gap 0 .GTE (c!" -> " ++ (c!"x\n[" ++ t)) = .ok 0 ('-' :: '>' :: ' ' :: 'x' :: '\n' :: '[' :: t) :=
    gap_blank 0 .GTE noGap_arrow
  have ha : tag c!"->" ('-' :: '>' :: ' ' :: 'x' :: '\n' :: '[' :: t) = .ok c!"->" (' ' :: 'x' :: '\n' :: '[' :: t) := rfl
  rw [bind_apply, e1, andThen_ok, bind_apply, e2, andThen_ok, bind_apply, ha, andThen_ok, bind_apply, gap_blank 0 .GTE (noGap_x _),
    andThen_ok, bind_apply, expression_x_line]
  rfl

theorem layer_cases {t r : Str} {e : Expr} (ht : NoGap t) (h : expression 0 t = .ok e (']' :: layerEnd r)) :
    casesP expression 0 (c!"x -> x\n[" ++ t) = .ok [(.Variable [c!"x"], .Variable [c!"x"])] ('\n' :: '[' :: t) := by
  have hloop : sepLoop (gap 0 .EQ) (caseBranch expression 0) (('\n' :: '[' :: t).length + 1) ('\n' :: '[' :: t) =
      .ok [] ('\n' :: '[' :: t) := by
    simp only [sepLoop, (gap_line (noGap_bracket t)).2, layer_branch ht h]
    split <;> rfl
  unfold casesP sepNonemptyList
  rw [layer_first, andThen_ok, if_neg (by simp), hloop]
  rfl

theorem layer_case {t r : Str} {e : Expr} (ht : NoGap t) (h : expression 0 t = .ok e (']' :: layerEnd r)) :
    expression 0 (layerCase t) =
      .ok (.Case (.Variable [c!"x"]) [(.Variable [c!"x"], .Variable [c!"x"])]) ('\n' :: '[' :: t) := by
  have hb : binary expression 0 (layerCase t) = .err :=
    binary_keyword (k := c!"case") (t := c!" x of x -> x\n[" ++ t) (by decide) (next_cons.2 (by decide))
  have hl : letExpression expression 0 (layerCase t) = .err := rfl
  have hc : tag c!"case" (layerCase t) = .ok c!"case" (' ' :: (c!"x of x -> x\n[" ++ t)) := rfl
  have ho : tag c!"of" (c!"of x -> x\n[" ++ t) = .ok c!"of" (' ' :: (c!"x -> x\n[" ++ t)) := rfl
  have e0 : gap 0 .GTE (' ' :: (c!"x of x -> x\n[" ++ t)) = .ok 0 (c!"x of x -> x\n[" ++ t) := gap_blank 0 .GTE (noGap_x _)
  have e1 : expression 0 (c!"x of x -> x\n[" ++ t) = .ok (.Variable [c!"x"]) (' ' :: (c!"of x -> x\n[" ++ t)) :=
    expression_of 0 (c!"x -> x\n[" ++ t)
  have e2 : gap 0 .GTE (' ' :: (c!"of x -> x\n[" ++ t)) = .ok 0 (c!"of x -> x\n[" ++ t) := gap_blank 0 .GTE (noGap_of_ne (by decide))
  have e3 : gap 0 .GTE (' ' :: (c!"x -> x\n[" ++ t)) = .ok 0 (c!"x -> x\n[" ++ t) := gap_blank 0 .GTE (noGap_x _)
  rw [expression_unfold]
  unfold expressionF
  rw [alt_apply, hb, orElse_err, alt_apply, hl, orElse_err, alt_apply]
  unfold caseExpression
  rw [bind_apply, hc, andThen_ok, bind_apply, e0, andThen_ok, bind_apply, e1, andThen_ok, bind_apply, e2, andThen_ok, bind_apply, ho,
    andThen_ok, bind_apply, e3, andThen_ok, bind_apply, layer_cases ht h]
  rfl

theorem expression_in (t : Str) : expression 0 (c!"x in x" ++ t) = .ok (.Variable [c!"x"]) (' ' :: 'i' :: 'n' :: ' ' :: 'x' :: t) := by
  refine expression_var_stop (t := c!"in x" ++ t) rfl (termF_x 0 _) ?_ ?_ ?_
  · exact noGap_of_ne (by decide)
  · exact termF_keyword (k := c!"in") (t := c!" x" ++ t) (by decide) (next_cons.2 (by decide))
  · exact operatorOrAs_err_head (by decide) (by decide)

theorem layer_entry1 {t r : Str} {e : Expr} (ht : NoGap t) (h : expression 0 t = .ok e (']' :: layerEnd r)) :
    letEntry expression 0 (c!"x = " ++ layerCase t) = .ok (.LetBinding (.Variable [c!"x"])
      (.Case (.Variable [c!"x"]) [(.Variable [c!"x"], .Variable [c!"x"])])) ('\n' :: '[' :: t) := by
  unfold letEntry letBinding
  have hv : letBindingTarget expression 0 (c!"x = " ++ layerCase t) = .ok (.Variable [c!"x"]) (' ' :: '=' :: ' ' :: layerCase t) := rfl
  have hg : gap 0 .GTE (' ' :: layerCase t) = .ok 0 (layerCase t) := gap_blank 0 .GTE (noGap_of_ne (by decide))
  rw [alt_apply, bind_apply, hv, andThen_ok, bind_apply, gap_blank 0 .GTE (noGap_eqSign _), andThen_ok, bind_apply, char_cons, andThen_ok,
    bind_apply, hg, andThen_ok, bind_apply, layer_case ht h]
  rfl

theorem layer_entry2 {t r : Str} {e : Expr} (ht : NoGap t) (h : expression 0 t = .ok e (']' :: layerEnd r)) :
    letEntry expression 0 ('[' :: t) = .ok (.LetBinding (.List [e]) (.Variable [c!"x"])) (' ' :: 'i' :: 'n' :: ' ' :: 'x' :: r) := by
  unfold letEntry letBinding
  have hv : letBindingTarget expression 0 ('[' :: t) = .ok (.List [e]) (layerEnd r) := by
    unfold letBindingTarget
    have : variableP ('[' :: t) = .err := variableP_err (by decide) (by decide) (by decide)
    rw [alt_apply, this, orElse_err, alt_apply, layer_list ht h]
    rfl
  have e1 : expression 0 ('x' :: ' ' :: 'i' :: 'n' :: ' ' :: 'x' :: r) = _ := expression_in r
  rw [alt_apply, bind_apply, hv, andThen_ok, bind_apply, gap_blank 0 .GTE (noGap_eqSign _), andThen_ok, bind_apply, char_cons, andThen_ok,
    bind_apply, gap_blank 0 .GTE (noGap_x _), andThen_ok, bind_apply, e1]
  rfl

theorem layer_entry3 (r : Str) : letEntry expression 0 ('i' :: 'n' :: ' ' :: 'x' :: r) = .err := rfl

theorem layer_let {t r : Str} {e w : Expr} (ht : NoGap t) (h : expression 0 t = .ok e (']' :: layerEnd r))
    (hr : expression 0 ('x' :: r) = .ok w r) : expression 0 (c!"let x = " ++ layerCase t) =
      .ok (.Let [.LetBinding (.Variable [c!"x"]) (.Case (.Variable [c!"x"]) [(.Variable [c!"x"], .Variable [c!"x"])]),
        .LetBinding (.List [e]) (.Variable [c!"x"])] w) r := by
  have hb : binary expression 0 (c!"let x = " ++ layerCase t) = .err :=
    binary_keyword (k := c!"let") (t := c!" x = " ++ layerCase t) (by decide) (next_cons.2 (by decide))
  have hl : tag c!"let" (c!"let x = " ++ layerCase t) = .ok c!"let" (' ' :: (c!"x = " ++ layerCase t)) := rfl
  have hg : gap 0 .GTE (' ' :: (c!"x = " ++ layerCase t)) = .ok 0 (c!"x = " ++ layerCase t) := gap_blank 0 .GTE (noGap_x _)
  have hlen : (' ' :: 'i' :: 'n' :: ' ' :: 'x' :: r).length < ('[' :: t).length := by
    rcases cons_expression (t.length + 1) 0 t (Nat.lt_succ_self _) with h' | ⟨v, r', h', -, hl⟩
    · rw [h] at h'; cases h'
    · rw [h] at h'; cases h'; simp at hl ⊢; omega
  have hi : gap 0 .EQ (' ' :: 'i' :: 'n' :: ' ' :: 'x' :: r) = .ok 0 ('i' :: 'n' :: ' ' :: 'x' :: r) := gap_blank 0 .EQ (noGap_of_ne (by decide))
  have hi' : gap 0 .GTE (' ' :: 'i' :: 'n' :: ' ' :: 'x' :: r) = .ok 0 ('i' :: 'n' :: ' ' :: 'x' :: r) :=
    gap_blank 0 .GTE (noGap_of_ne (by decide))
  have hin : tag c!"in" ('i' :: 'n' :: ' ' :: 'x' :: r) = .ok c!"in" (' ' :: 'x' :: r) := rfl
  have hbs : letBindings expression 0 (c!"x = " ++ layerCase t) =
      .ok [.LetBinding (.Variable [c!"x"]) (.Case (.Variable [c!"x"]) [(.Variable [c!"x"], .Variable [c!"x"])]),
        .LetBinding (.List [e]) (.Variable [c!"x"])] (' ' :: 'i' :: 'n' :: ' ' :: 'x' :: r) := by
    have hloop2 : ∀ n, sepLoop (gap 0 .EQ) (letEntry expression 0) (n + 1) (' ' :: 'i' :: 'n' :: ' ' :: 'x' :: r) =
        .ok [] (' ' :: 'i' :: 'n' :: ' ' :: 'x' :: r) := by
      intro n
      simp only [sepLoop, hi, layer_entry3]
      split <;> rfl
    have hloop : sepLoop (gap 0 .EQ) (letEntry expression 0) (('\n' :: '[' :: t).length + 1) ('\n' :: '[' :: t) =
        .ok [.LetBinding (.List [e]) (.Variable [c!"x"])] (' ' :: 'i' :: 'n' :: ' ' :: 'x' :: r) := by
      rw [sepLoop]
      simp only [(gap_line (noGap_bracket t)).2, layer_entry2 ht h]
      rw [if_neg (by simp), if_neg (by omega), List.length_cons, hloop2]
      rfl
    unfold letBindings sepNonemptyList
    rw [layer_entry1 ht h, andThen_ok, if_neg (by simp), hloop]
    rfl
  rw [expression_unfold]
  unfold expressionF
  rw [alt_apply, hb, orElse_err, alt_apply]
  unfold letExpression
  rw [bind_apply, hl, andThen_ok, bind_apply, hg, andThen_ok, bind_apply, hbs, andThen_ok, bind_apply, hi', andThen_ok, bind_apply, hin,
    andThen_ok, bind_apply, gap_blank 0 .GTE (noGap_x r), andThen_ok, bind_apply, hr]
  rfl

namespace Trace
variable {m : Event → Bool}

theorem cost_layer_item {t : Str} (ht : NoGap t) : num m (expression 0 t) ≤ num m (expression 0 ('[' :: t)) :=
  Nat.le_trans (Nat.le_trans (cost_open_list ht) (cost_term_list 0 t)) (cost_term 0 _)

/-- The list is read as a branch of the case. -/
theorem cost_layer_case {t : Str} (ht : NoGap t) : num m (expression 0 t) ≤ num m (expression 0 (layerCase t)) := by
  refine Nat.le_trans ?_ (cost_body 0 _)
  unfold expressionF
  have hb : (binary expression 0 (layerCase t)).1 = .err := (er_binary er_expression 0 _).trans
    (binary_keyword (k := c!"case") (t := c!" x of x -> x\n[" ++ t) (by decide) (next_cons.2 (by decide)))
  have hl : (letExpression expression 0 (layerCase t)).1 = .err := rfl
  have hc : ElmParser.tag c!"case" (layerCase t) = .ok c!"case" (' ' :: (c!"x of x -> x\n[" ++ t)) := rfl
  have hof : ElmParser.tag c!"of" (c!"of x -> x\n[" ++ t) = .ok c!"of" (' ' :: (c!"x -> x\n[" ++ t)) := rfl
  rw [cost_alt_err hb]
  refine Nat.le_trans ?_ (Nat.le_add_left _ _)
  rw [cost_alt_err hl]
  refine Nat.le_trans ?_ (Nat.le_add_left _ _)
  refine Nat.le_trans ?_ (cost_alt _ _ _)
  unfold caseExpression
  refine Nat.le_trans ?_ (cost_bind_ok (p := free (ElmParser.tag c!"case")) _ hc)
  refine Nat.le_trans ?_ (cost_bind_ok (p := free (gap 0 .GTE)) _ (gap_blank 0 .GTE (noGap_x _)))
  refine Nat.le_trans ?_ (cost_bind_ok _ ((er_expression 0 _).trans (expression_of 0 (c!"x -> x\n[" ++ t))))
  refine Nat.le_trans ?_ (cost_bind_ok (p := free (gap 0 .GTE)) _ (gap_blank 0 .GTE (noGap_of_ne (by decide))))
  refine Nat.le_trans ?_ (cost_bind_ok (p := free (ElmParser.tag c!"of")) _ hof)
  refine Nat.le_trans ?_ (cost_bind_ok (p := free (gap 0 .GTE)) _ (gap_blank 0 .GTE (noGap_x _)))
  refine Nat.le_trans ?_ (cost_bind _ _ _)
  unfold casesP
  refine Nat.le_trans ?_ (cost_firstAndMore (s := c!"x -> x\n[" ++ t) (r := '\n' :: '[' :: t) _
    ((er_caseBranch er_expression 0 _).trans (layer_first t)) (by simp))
  refine Nat.le_trans ?_ (Nat.le_add_left _ _)
  refine Nat.le_trans ?_ (cost_sepLoop (n := ('\n' :: '[' :: t).length) (gap_line (noGap_bracket t)).2 (Nat.lt_succ_self _))
  unfold caseBranch
  exact Nat.le_trans (cost_layer_item ht) (cost_bind _ _ _)

/-- The list is read twice: as a branch of the case, and as the next binding of the let. -/
theorem cost_layer {t r : Str} {e : Expr} (ht : NoGap t) (h : ElmParser.expression 0 t = .ok e (']' :: layerEnd r)) :
    2 * num m (expression 0 t) ≤ num m (expression 0 (c!"let x = " ++ layerCase t)) := by
  refine Nat.le_trans ?_ (cost_body 0 _)
  have hb : (binary expression 0 (c!"let x = " ++ layerCase t)).1 = .err := (er_binary er_expression 0 _).trans
    (binary_keyword (k := c!"let") (t := c!" x = " ++ layerCase t) (by decide) (next_cons.2 (by decide)))
  unfold expressionF
  rw [cost_alt_err hb]
  refine Nat.le_trans ?_ (Nat.le_add_left _ _)
  refine Nat.le_trans ?_ (cost_alt _ _ _)
  unfold letExpression
  have hl : ElmParser.tag c!"let" (c!"let x = " ++ layerCase t) = .ok c!"let" (' ' :: (c!"x = " ++ layerCase t)) := rfl
  refine Nat.le_trans ?_ (cost_bind_ok (p := free (ElmParser.tag c!"let")) _ hl)
  refine Nat.le_trans ?_ (cost_bind_ok (p := free (gap 0 .GTE)) _ (gap_blank 0 .GTE (noGap_x _)))
  refine Nat.le_trans ?_ (cost_bind _ _ _)
  unfold letBindings
  refine Nat.le_trans ?_ (cost_firstAndMore (s := c!"x = " ++ layerCase t) (r := '\n' :: '[' :: t) _
    ((er_letEntry er_expression 0 _).trans (layer_entry1 ht h)) (by simp))
  rw [Nat.two_mul]
  refine Nat.add_le_add ?_ ?_
  · refine Nat.le_trans (cost_layer_case ht) ?_
    unfold letEntry
    refine Nat.le_trans ?_ (cost_alt _ _ _)
    unfold letBinding
    have hv : (letBindingTarget expression 0 (c!"x = " ++ layerCase t)).1 = .ok (.Variable [c!"x"]) (' ' :: '=' :: ' ' :: layerCase t) := rfl
    refine Nat.le_trans ?_ (cost_bind_ok _ hv)
    refine Nat.le_trans ?_ (cost_bind_ok (p := free (gap 0 .GTE)) _ (gap_blank 0 .GTE (noGap_eqSign (' ' :: layerCase t))))
    refine Nat.le_trans ?_ (cost_bind_ok (p := free (ElmParser.char '=')) _ (char_cons '=' (' ' :: layerCase t)))
    refine Nat.le_trans ?_ (cost_bind_ok (p := free (gap 0 .GTE)) _ (gap_blank 0 .GTE (noGap_of_ne (by decide))))
    exact cost_bind _ _ _
  · refine Nat.le_trans ?_ (cost_sepLoop (n := ('\n' :: '[' :: t).length) (gap_line (noGap_bracket t)).2 (Nat.lt_succ_self _))
    unfold letEntry
    refine Nat.le_trans ?_ (cost_alt _ _ _)
    unfold letBinding
    refine Nat.le_trans ?_ (cost_bind _ _ _)
    unfold letBindingTarget
    have : variableP ('[' :: t) = .err := variableP_err (by decide) (by decide) (by decide)
    refine Nat.le_trans ?_ (cost_alt_err' (p := free variableP) this)
    exact Nat.le_trans (cost_open_list ht) (cost_alt _ _ _)

end Trace

/-- Valid expressions: `x`, and `let x = case x of x -> x` with a second line `[…] = x in x` around the one before. -/
def layers : Nat → Str
  | 0 => c!"x"
  | n + 1 => c!"let x = case x of x -> x\n[" ++ layers n ++ c!"] = x in x"

/-- Their trees. -/
def layersTree : Nat → Expr
  | 0 => .Variable [c!"x"]
  | n + 1 => .Let [.LetBinding (.Variable [c!"x"]) (.Case (.Variable [c!"x"]) [(.Variable [c!"x"], .Variable [c!"x"])]),
      .LetBinding (.List [layersTree n]) (.Variable [c!"x"])] (.Variable [c!"x"])

theorem noGap_layers (n : Nat) (r : Str) : NoGap (layers n ++ r) := by
  cases n <;> exact noGap_of_ne (by decide)

theorem layers_cons (n : Nat) (r : Str) :
    layers (n + 1) ++ r = c!"let x = " ++ layerCase (layers n ++ (']' :: layerEnd r)) := by simp [layers]

theorem expression_x_end : expression 0 c!"x" = .ok (.Variable [c!"x"]) [] := by rw [expression_unfold]; rfl

theorem expression_x_bracket (r : Str) : expression 0 ('x' :: ']' :: r) = .ok (.Variable [c!"x"]) (']' :: r) := by
  have hs : Stop 0 (']' :: r) := (stop_whites (w := []) (x := ']') (by simp [Whites]) (by decide)).stop (Nat.zero_le _)
  have h := expression_complete (pairs_src 0 0) hs
  rw [pairs, pairsTree] at h
  exact h

theorem layers_parse (n : Nat) {r : Str} (hr : expression 0 ('x' :: r) = .ok (.Variable [c!"x"]) r) :
    expression 0 (layers n ++ r) = .ok (layersTree n) r := by
  induction n generalizing r with
  | zero => exact hr
  | succ n ih =>
    rw [layers_cons]
    exact layer_let (noGap_layers n _) (ih (expression_x_bracket _)) hr

/-- C61: the layers are valid expressions. -/
theorem C61_valid_parse (n : Nat) : expression 0 (layers n) = .ok (layersTree n) [] := by
  have := layers_parse n expression_x_end
  rwa [List.append_nil] at this

theorem layers_cost (n : Nat) {r : Str} (hr : expression 0 ('x' :: r) = .ok (.Variable [c!"x"]) r) :
    2 ^ n ≤ Trace.calls (Trace.expression 0 (layers n ++ r)) := by
  induction n generalizing r with
  | zero => rw [C40_counts]; exact Nat.succ_le_succ (Nat.zero_le _)
  | succ n ih =>
    rw [layers_cons, Nat.pow_succ, Nat.mul_comm]
    refine Nat.le_trans (Nat.mul_le_mul_left 2 (ih (expression_x_bracket (layerEnd r)))) ?_
    exact Trace.cost_layer (noGap_layers n _) (layers_parse n (expression_x_bracket _))

/-- C61: valid expressions without a parenthesis can take exponentially many calls, too. -/
theorem C61_valid (n : Nat) : 2 ^ n ≤ Trace.calls (Trace.expression 0 (layers n)) := by
  have := layers_cost n expression_x_end
  rwa [List.append_nil] at this

theorem layers_noParen (n : Nat) : '(' ∉ layers n := by
  induction n with
  | zero => decide
  | succ n ih =>
    unfold layers
    rw [List.mem_append, List.mem_append]
    rintro ((h | h) | h)
    · exact absurd h (by decide)
    · exact ih h
    · exact absurd h (by decide)

theorem layers_length (n : Nat) : (layers n).length = 1 + 36 * n := by
  induction n with
  | zero => rfl
  | succ n ih => simp [layers, ih]; omega

/-- C61: and so can valid files without a parenthesis. -/
theorem C61_valid_file (n : Nat) : '(' ∉ c!"x = " ++ layers n ∧ (c!"x = " ++ layers n).length = 5 + 36 * n ∧
    file (c!"x = " ++ layers n) = .ok [.Function (.mk none (.mk c!"x" [] (layersTree n)))] [] ∧
    2 ^ n ≤ Trace.calls (Trace.file (c!"x = " ++ layers n)) := by
  have hg : NoGap (layers n) := by simpa using noGap_layers n []
  have hname : functionNameOrOp (c!"x = " ++ layers n) = .ok c!"x" (c!" = " ++ layers n) := rfl
  have hsp : spaces (c!" = " ++ layers n) = .ok c!" " ('=' :: ' ' :: layers n) := rfl
  refine ⟨?_, by simp [layers_length]; omega, ?_, ?_⟩
  · rw [List.mem_append]
    rintro (h | h)
    · exact absurd h (by decide)
    · exact layers_noParen n h
  · have hf : function 0 (c!"x = " ++ layers n) = .ok (.mk none (.mk c!"x" [] (layersTree n))) [] := by
      unfold function functionF
      rw [bind_apply, signature_open, andThen_ok, bind_apply]
      unfold functionDefinitionF
      rw [bind_apply, hname, andThen_ok, bind_apply, args_open, andThen_ok, bind_apply, hsp, andThen_ok, bind_apply, char_cons, andThen_ok,
        bind_apply, gap_blank 0 .GT hg, andThen_ok, bind_apply, C61_valid_parse]
      rfl
    have hs : statement (c!"x = " ++ layers n) = .ok (.Function (.mk none (.mk c!"x" [] (layersTree n)))) [] := by
      unfold statement
      have f : ∀ {p q : Parser Statement} {t : Str}, p t = .err → (p </> q) t = q t := by
        intro p q t h
        rw [alt_apply, h, orElse_err]
      rw [f rfl, f rfl, f rfl, f rfl, f rfl, f rfl, f rfl, f rfl, alt_apply, pmap_apply, hf]
      rfl
    unfold file statements sepNonemptyList
    have hm : multispace0 (c!"x = " ++ layers n) = .ok [] (c!"x = " ++ layers n) := rfl
    rw [terminated_apply, delimited_apply, hm, andThen_ok, hs, andThen_ok, if_neg (by simp)]
    rfl
  · refine Nat.le_trans (C61_valid n) ?_
    unfold Trace.calls Trace.file Trace.statements Trace.terminated Trace.delimited
    refine Nat.le_trans ?_ (Trace.cost_bind _ _ _)
    refine Nat.le_trans ?_ (Trace.cost_bind_ok (v := []) (r := c!"x = " ++ layers n) _ rfl)
    refine Nat.le_trans ?_ (Trace.cost_bind _ _ _)
    refine Nat.le_trans ?_ (Trace.cost_sepNonemptyList _ _ _)
    unfold Trace.statement
    refine Nat.le_trans ?_ (Trace.cost_alt_err' rfl)
    refine Nat.le_trans ?_ (Trace.cost_alt_err' rfl)
    refine Nat.le_trans ?_ (Trace.cost_alt_err' rfl)
    refine Nat.le_trans ?_ (Trace.cost_alt_err' rfl)
    refine Nat.le_trans ?_ (Trace.cost_alt_err' rfl)
    refine Nat.le_trans ?_ (Trace.cost_alt_err' rfl)
    refine Nat.le_trans ?_ (Trace.cost_alt_err' rfl)
    refine Nat.le_trans ?_ (Trace.cost_alt_err' rfl)
    refine Nat.le_trans ?_ (Trace.cost_alt _ _ _)
    refine Nat.le_trans ?_ (Trace.cost_bind _ _ _)
    unfold Trace.function Trace.functionF
    refine Nat.le_trans ?_ (Trace.cost_bind_ok _
      ((Trace.er_opt (Trace.er_terminated (Trace.er_functionSignature 0) (Trace.er_free _)) _).trans (signature_open 0 (layers n))))
    refine Nat.le_trans ?_ (Trace.cost_bind _ _ _)
    unfold Trace.functionDefinitionF
    refine Nat.le_trans ?_ (Trace.cost_bind_ok (p := Trace.free functionNameOrOp) _ hname)
    refine Nat.le_trans ?_ (Trace.cost_bind_ok _
      ((Trace.er_many0 (Trace.er_preceded (Trace.er_free _) (Trace.er_termF Trace.er_expression 0)) _).trans (args_open 0 (layers n))))
    refine Nat.le_trans ?_ (Trace.cost_bind_ok (p := Trace.free spaces) _ hsp)
    refine Nat.le_trans ?_ (Trace.cost_bind_ok (p := Trace.free (char '=')) _ (char_cons '=' (' ' :: layers n)))
    refine Nat.le_trans ?_ (Trace.cost_bind_ok (p := Trace.free (gap 0 .GT)) _ (gap_blank 0 .GT hg))
    exact Trace.cost_bind _ _ _

/-- The smallest cases. -/
example : layers 1 = c!"let x = case x of x -> x\n[x] = x in x" ∧
    Trace.calls (Trace.expression 0 (layers 0)) = 1 ∧ Trace.calls (Trace.expression 0 (layers 1)) = 10 ∧ Trace.calls (Trace.expression 0 (layers 2)) = 28 := ⟨rfl, rfl, rfl, rfl⟩

end ElmParser
